import Verif.Lemmas.WGReflectGeom
import Verif.Props.Util

/-!
# Within-group solves with reflecting sides (C124)
-/

namespace Detran.WGReflect

open Detran.Sweep (St sweepSource incidentOctants)
open Detran.Boundary (Bd BC Loc Enters Mirror)
open Finset

section main
variable {F K : Type} [Field K]

/-! ## Specification -/

/-- `bd` (face fluxes by side, octant and angle) and `psi` (angular fluxes) solve the discrete-ordinates equations
    of the group with sources `src` and the side conditions of the problem.  Their scalar flux is `phi` up to
    `eF`, and at reflecting sides the entering flux is that of the mirror direction up to `eB`. -/
structure Solution (P : Prob F K) (w : Nat → K)
    (Sol : (Nat → K) → Nat → Nat → (Nat → F) → (Nat → K) → Prop) (src : Nat → Nat → Nat → K) (phi eF : Nat → K)
    (eB : Loc → K) (bd : Bd F) (psi : Nat → Nat → Nat → K) : Prop where
  cells : ∀ o < 2 ^ P.dim, ∀ a < P.na, Sol (src o a) o a (fun f => bd f o a) (psi o a)
  flux : ∀ c < P.N, phi c + eF c = ∑ o ∈ range (2 ^ P.dim), ∑ a ∈ range P.na, w a * psi o a c
  vacuum : ∀ side < 2 * P.dim, P.bc side = .vacuum → ∀ o < 2 ^ P.dim, Enters side o → ∀ a < P.na, ∀ i j,
    InFace P side i j → P.get (bd side o a) i j = 0
  given : ∀ side < 2 * P.dim, ∀ ps, P.bc side = .fixed ps → ∀ o < 2 ^ P.dim, ∀ io,
    (incidentOctants P.dim side)[io]? = some o → ∀ a < P.na, ∀ i j, InFace P side i j →
    P.get (bd side o a) i j = P.get (ps io a) i j
  reflect : ∀ side < 2 * P.dim, P.bc side = .reflect → ∀ o < 2 ^ P.dim, Enters side o → ∀ o',
    Mirror P.dim side o o' → ∀ a < P.na, ∀ i j, InFace P side i j →
    P.get (bd side o a) i j - P.get (bd side o' a) i j = eB ⟨side, o, a, i, j⟩

/-- `phi` is the scalar flux of the group: the source is the within-group scatter of `phi` itself plus the fixed
    source. -/
def IsFlux (P : Prob F K) (w : Nat → K)
    (Sol : (Nat → K) → Nat → Nat → (Nat → F) → (Nat → K) → Prop) (phi : Nat → K) : Prop :=
  ∃ bd psi, Solution P w Sol (fun o a c => (P.fixed c + P.scat (P.moments phi) c) * P.mtod o a) phi
    (fun _ => 0) (fun _ => 0) bd psi

/-- By how much the flux entering at a place differs from that of the mirror direction. -/
def Mismatch (P : Prob F K) (bd : Bd F) (eB : Loc → K) : Prop :=
  ∀ side < 2 * P.dim, P.bc side = .reflect → ∀ o < 2 ^ P.dim, Enters side o → ∀ o', Mirror P.dim side o o' →
    ∀ a < P.na, ∀ i j, InFace P side i j →
      P.get (bd side o a) i j - P.get (bd side o' a) i j = eB ⟨side, o, a, i, j⟩

variable {P : Prob F K} {w : Nat → K} {Sol : (Nat → K) → Nat → Nat → (Nat → F) → (Nat → K) → Prop}

theorem enters_of_incident (h : Sweeps P w Sol) (side : Nat) (hs : side < 2 * P.dim) (io o : Nat)
    (hio : (incidentOctants P.dim side)[io]? = some o) : Enters side o := by
  obtain ⟨_, _, _, _, hm⟩ := Angle.C33_tables P.dim h.d1 h.d3 side hs
  exact ((hm o).1.1 (List.mem_of_getElem? hio)).2

theorem source_eq (hd : P.disc = []) (f g : Nat → K) (o a : Nat) :
    P.source f g o a = fun c => (f c + g c) * P.mtod o a := by
  funext c
  simp only [Prob.source, sweepSource, hd, List.foldl_nil]
  try ring

/-! ## The operator -/

theorem multiply_spec (h : Sweeps P w Sol) (hp : ∀ s < 2 * P.dim, P.bc s ≠ .periodic) (s : St F K) (x : Nat → K) :
    ∃ s1, (∃ s0, s1 = P.sweep false (P.source (fun _ => 0) (P.scat (P.moments x))) s0) ∧
      (∀ c < P.N, (P.multiply s x).2 c = x c - s1.phi c) ∧
      (∀ side < 2 * P.dim, ∀ o < 2 ^ P.dim, Enters side o → ∀ a < P.na, ∀ i j, InFace P side i j →
        P.get (s1.bdy side o a) i j = if P.refl side then x (P.slot ⟨side, o, a, i, j⟩) else 0) ∧
      ∀ side < 2 * P.dim, P.bc side = .reflect → ∀ o < 2 ^ P.dim, Enters side o → ∀ o', Mirror P.dim side o o' →
        ∀ a < P.na, ∀ i j, InFace P side i j →
        (P.multiply s x).2 (P.slot ⟨side, o, a, i, j⟩) =
          x (P.slot ⟨side, o, a, i, j⟩) - P.get (s1.bdy side o' a) i j := by
  let b1 := if P.hasRefl then P.setIn x (P.clear s.bdy) else P.clear s.bdy
  let s1 := P.sweep false (P.source (fun _ => 0) (P.scat (P.moments x))) { s with bdy := b1 }
  refine ⟨s1, ⟨_, rfl⟩, ?_, ?_, ?_⟩
  · intro c hc
    unfold Prob.multiply
    dsimp only
    cases hr : P.hasRefl with
    | true => simp only [if_true, if_pos hc, s1, b1, hr]
    | false => simp only [Bool.false_eq_true, if_false, s1, b1, hr]
  · intro side hs o ho he a ha i j hi
    rw [sweep_off h _ _ o a ho ha side hs he]
    change P.get (b1 side o a) i j = _
    by_cases hb : P.bc side = .reflect
    · have hr : P.hasRefl = true := hasRefl_iff.2 ⟨side, hs, hb⟩
      simp only [b1, hr, if_true]
      rw [get_setIn h x _ side o a i j hs hi, if_pos ((mem_locs h _ _ _ _ _).2 ⟨hs, hb, ho, he, ha, hi⟩), if_pos ((refl_iff side).2 hb)]
    · rw [if_neg (fun h' => hb ((refl_iff side).1 h'))]
      cases hr : P.hasRefl with
      | true =>
        simp only [b1, hr, if_true]
        rw [get_setIn h x _ side o a i j hs hi, if_neg (fun h' => hb ((mem_locs h _ _ _ _ _).1 h').2.1),
          get_clear h _ _ _ _ _ _ hs ho ha hi]
      | false =>
        simp only [b1, hr, Bool.false_eq_true, if_false]
        exact get_clear h _ _ _ _ _ _ hs ho ha hi
  · intro side hs hb o ho he o' hm a ha i j hi
    have hr : P.hasRefl = true := hasRefl_iff.2 ⟨side, hs, hb⟩
    have hl := (mem_locs h side o a i j).2 ⟨hs, hb, ho, he, ha, hi⟩
    have e1 : (P.multiply s x).2 = fun i => if i < P.N then x i - s1.phi i
        else x i - (Boundary.getPsi P.locs (P.flat (Boundary.update P.dim P.na P.bc s1.bdy))).getD (i - P.N) 0 := by
      unfold Prob.multiply
      simp only [s1, b1, hr, if_true]
    rw [e1]
    dsimp only
    rw [if_neg (by have := (slot_spec h _ hl).1; omega)]
    congr 1
    unfold Prob.slot Boundary.getPsi
    rw [Nat.add_sub_cancel_left, List.getD_eq_getElem?_getD, List.getElem?_map, List.getElem?_idxOf hl]
    change P.get (Boundary.update P.dim P.na P.bc s1.bdy side o a) i j = _
    rw [(Boundary.C30_boundary_update P.dim h.d1 h.d3 P.na P.bc hp s1.bdy).1 side o o' a hs hb ho he hm ha]

/-! ## The right-hand side -/

section order
variable [LinearOrder K]

/-- Entering fluxes of sides that do not reflect. -/
def SameSides (P : Prob F K) (b b' : Bd F) : Prop :=
  ∀ side < 2 * P.dim, P.bc side ≠ .reflect → ∀ o < 2 ^ P.dim, Enters side o → ∀ a < P.na, b side o a = b' side o a

theorem loop_last (h : Sweeps P w Sol) (hp : ∀ s < 2 * P.dim, P.bc s ≠ .periodic) (src) (tol : K) (k : Nat) :
    ∀ s : St F K, ∃ s', P.loop src tol (k + 1) s = P.sweep true src s' ∧ SameSides P s'.bdy s.bdy := by
  have upd : ∀ b : Bd F, SameSides P (Boundary.update P.dim P.na P.bc b) b := fun b side hs hb o ho he a ha =>
    (Boundary.C30_boundary_update P.dim h.d1 h.d3 P.na P.bc hp b).2 side o a fun h' => hb h'.2.1
  induction k with
  | zero =>
    intro s
    refine ⟨{ s with bdy := Boundary.update P.dim P.na P.bc s.bdy }, ?_, upd _⟩
    unfold Prob.loop
    dsimp only
    split
    · rfl
    · rfl
  | succ k ih =>
    intro s
    rw [Prob.loop]
    split
    · exact ⟨_, rfl, upd _⟩
    · obtain ⟨s', h1, h2⟩ := ih (P.sweep true src { s with bdy := Boundary.update P.dim P.na P.bc s.bdy })
      refine ⟨s', h1, fun side hs hb o ho he a ha => ?_⟩
      rw [h2 side hs hb o ho he a ha, sweep_keep h hp true src _ o a ho ha side hs he hb]
      exact upd _ side hs hb o ho he a ha

theorem rhs_last (h : Sweeps P w Sol) (hp : ∀ s < 2 * P.dim, P.bc s ≠ .periodic) (tol : K) (s : St F K) :
    ∃ upd s', P.rhsState tol s = P.sweep upd (P.source P.fixed (fun _ => 0)) s' ∧ (P.hasRefl = true → upd = true) ∧
      SameSides P s'.bdy (Boundary.set P.dim P.na P.bc (P.clear s.bdy)) := by
  unfold Prob.rhsState
  dsimp only
  cases hr : P.hasRefl with
  | true =>
    simp only [if_true]
    obtain ⟨s', h1, h2⟩ := loop_last h hp (P.source P.fixed (fun _ => 0)) tol 999
      ⟨Boundary.set P.dim P.na P.bc (P.clear s.bdy), fun _ => 0, s.psi⟩
    exact ⟨true, s', h1, fun _ => rfl, h2⟩
  | false =>
    simp only [Bool.false_eq_true, if_false]
    exact ⟨false, _, rfl, fun h' => h'.elim, fun _ _ _ _ _ _ _ _ => rfl⟩

/-- Face-wise sum of two containers. -/
def Prob.plus (P : Prob F K) (b1 b2 : Bd F) : Bd F :=
  fun side o a => P.face fun i j => P.get (b1 side o a) i j + P.get (b2 side o a) i j

/-- The problem with the discrete sources switched off. -/
def Prob.off (P : Prob F K) : Prob F K := { P with disc := [] }

omit [LinearOrder K] in
theorem off_eq (hd : P.disc = []) : P.off = P := by
  cases P
  simp only at hd
  subst hd
  rfl

omit [LinearOrder K] in
theorem sweeps_off (h : Sweeps P w Sol) : Sweeps P.off w Sol where
  d1 := h.d1
  d3 := h.d3
  order := h.order
  face := h.face
  other := h.other
  inc := h.inc
  solves := h.solves
  lin := h.lin
  det := h.det

omit [LinearOrder K] in
/-- Sources of two sweeps add up when the discrete sources are on in one of them. -/
theorem source_add (f g : Nat → K) (o a c : Nat) :
    P.source f g o a c = P.off.source (fun _ => 0) g o a c + P.source f (fun _ => 0) o a c := by
  have key : ∀ (l : List (Nat → Nat → Nat → K)) (u v : K), l.foldl (fun v d => v + d o a c) (u + v)
      = u + l.foldl (fun v d => v + d o a c) v := by
    intro l
    induction l with
    | nil => intros; rfl
    | cons d l ih => intro u v; rw [List.foldl_cons, List.foldl_cons, add_assoc, ih]
  unfold Prob.source sweepSource Prob.off
  dsimp only
  rw [List.foldl_nil, ← key]
  congr 1
  ring

/-- What the sweeps that make the right-hand side leave: the last one is a sweep of the fixed source from the
    cleared and set boundary, up to the fluxes entering at reflecting sides. -/
structure RhsOf (P : Prob F K) (R : St F K) : Prop where
  last : ∃ upd s' b, R = P.sweep upd (P.source P.fixed (fun _ => 0)) s' ∧
    SameSides P s'.bdy (Boundary.set P.dim P.na P.bc (P.clear b))

/-- The right-hand side vector. -/
def Prob.rhsVec (P : Prob F K) (R : St F K) : Nat → K := fun i => if i < P.N then R.phi i else 0

omit [LinearOrder K] in
theorem residual_core (h : Sweeps P w Sol) (hp : ∀ s < 2 * P.dim, P.bc s ≠ .periodic)
    (R : St F K) (hR : RhsOf P R) (s' : St F K) (x : Nat → K) (eB : Loc → K) (hm : Mismatch P R.bdy eB) :
    let r := fun i => P.rhsVec R i - (P.off.multiply s' x).2 i
    ∃ bd psi, Solution P w Sol (P.source P.fixed (P.scat (P.moments x))) x r (fun l => eB l - r (P.slot l)) bd psi ∧
      ∀ side < 2 * P.dim, P.bc side = .reflect → ∀ o < 2 ^ P.dim, Enters side o → ∀ a < P.na, ∀ i j,
        InFace P side i j → P.get (bd side o a) i j =
          x (P.slot ⟨side, o, a, i, j⟩) + P.get (R.bdy side o a) i j := by
  intro r
  obtain ⟨s1, ⟨s0, e1⟩, m1, m2, m3⟩ := multiply_spec (sweeps_off h) hp s' x
  obtain ⟨upd, s2, b, e2, hs2⟩ := hR.last
  obtain ⟨psi1, c1, f1⟩ := h.solves false (P.off.source (fun _ => 0) (P.scat (P.moments x))) s0
  obtain ⟨psi2, c2, f2⟩ := h.solves upd (P.source P.fixed (fun _ => 0)) s2
  have e1' : s1 = P.sweep false (P.off.source (fun _ => 0) (P.scat (P.moments x))) s0 := e1
  rw [← e1'] at c1 f1
  rw [← e2] at c2 f2
  have hplus : ∀ side < 2 * P.dim, ∀ o a i j, InFace P side i j →
      P.get (P.plus s1.bdy R.bdy side o a) i j =
        P.get (s1.bdy side o a) i j + P.get (R.bdy side o a) i j :=
    fun side hs o a i j hi => h.face side hs _ i j hi
  have hside : ∀ side < 2 * P.dim, P.bc side ≠ .reflect → ∀ o < 2 ^ P.dim, Enters side o → ∀ a < P.na,
      R.bdy side o a = Boundary.set P.dim P.na P.bc (P.clear b) side o a := by
    intro side hs hb o ho he a ha
    rw [e2, sweep_keep h hp upd _ s2 o a ho ha side hs he hb]
    exact hs2 side hs hb o ho he a ha
  have m2' : ∀ side < 2 * P.dim, ∀ o < 2 ^ P.dim, Enters side o → ∀ a < P.na, ∀ i j, InFace P side i j →
        P.get (s1.bdy side o a) i j = if P.refl side then x (P.slot ⟨side, o, a, i, j⟩) else 0 := m2
  refine ⟨P.plus s1.bdy R.bdy, fun o a c => psi1 o a c + psi2 o a c, ⟨?_, ?_, ?_, ?_, ?_⟩, ?_⟩
  · intro o ho a ha
    refine h.lin 1 1 _ _ _ o a _ _ _ _ _ _ ho (c1 o ho a ha) (c2 o ho a ha) ?_ (fun _ => by ring) ?_
    · intro c _
      rw [source_add]
      ring
    · exact fun side hs i j hi => by rw [hplus side hs o a i j hi]; ring
  · intro c hc
    simp only [mul_add, sum_add_distrib]
    rw [← f1 c hc, ← f2 c hc]
    change x c + (P.rhsVec R c - (P.off.multiply s' x).2 c) = _
    rw [m1 c hc]
    unfold Prob.rhsVec
    rw [if_pos hc]
    ring
  · intro side hs hb o ho he a ha i j hi
    have hnr : P.bc side ≠ .reflect := by rw [hb]; simp
    rw [hplus side hs o a i j hi, m2' side hs o ho he a ha i j hi, if_neg (fun h' => hnr ((refl_iff side).1 h')), hside side hs hnr o ho he a ha,
      (Boundary.C67_set P.dim h.d1 h.d3 P.na P.bc _).2 side o a (by
        rintro ⟨_, ⟨ps, h'⟩, _⟩; rw [hb] at h'; cases h'), get_clear h _ _ _ _ _ _ hs ho ha hi, add_zero]
  · intro side hs ps hb o ho io hio a ha i j hi
    have he := enters_of_incident h side hs io o hio
    have hnr : P.bc side ≠ .reflect := by rw [hb]; simp
    rw [hplus side hs o a i j hi, m2' side hs o ho he a ha i j hi, if_neg (fun h' => hnr ((refl_iff side).1 h')), hside side hs hnr o ho he a ha,
      (Boundary.C67_set P.dim h.d1 h.d3 P.na P.bc _).1 side ps hs hb io o a hio ha, zero_add]
  · intro side hs hb o ho he o' hmm a ha i j hi
    rw [hplus side hs o a i j hi, hplus side hs o' a i j hi, m2' side hs o ho he a ha i j hi, if_pos ((refl_iff side).2 hb)]
    have h1 : (P.off.multiply s' x).2 (P.slot ⟨side, o, a, i, j⟩) =
          x (P.slot ⟨side, o, a, i, j⟩) - P.get (s1.bdy side o' a) i j := m3 side hs hb o ho he o' hmm a ha i j hi
    have h2 := hm side hs hb o ho he o' hmm a ha i j hi
    have hl := (mem_locs h side o a i j).2 ⟨hs, hb, ho, he, ha, hi⟩
    have h3 : P.rhsVec R (P.slot ⟨side, o, a, i, j⟩) = 0 :=
      if_neg (by have := (slot_spec h _ hl).1; omega)
    change _ = eB _ - (P.rhsVec R (P.slot ⟨side, o, a, i, j⟩) - (P.off.multiply s' x).2 (P.slot ⟨side, o, a, i, j⟩))
    rw [h3, h1, ← h2]
    ring
  · intro side hs hb o ho he a ha i j hi
    rw [hplus side hs o a i j hi, m2' side hs o ho he a ha i j hi, if_pos ((refl_iff side).2 hb)]

theorem rhs_of (h : Sweeps P w Sol) (hp : ∀ s < 2 * P.dim, P.bc s ≠ .periodic) (tol : K) (s : St F K) :
    RhsOf P (P.rhsState tol s) := by
  obtain ⟨upd, s2, e2, _, hs2⟩ := rhs_last h hp tol s
  exact ⟨upd, s2, s.bdy, e2, hs2⟩

/-- For every vector `x`, with `r = b - A x`: `x` holds the scalar flux and the collided part of the entering
    fluxes of a solution of the group's equations, whose scalar flux is off by `r` in the cells and whose
    reflection is off by what it was off in the uncollided problem less `r` at that place. -/
theorem C124_residual (h : Sweeps P w Sol) (hp : ∀ s < 2 * P.dim, P.bc s ≠ .periodic) (hd : P.disc = [])
    (tol : K) (s s' : St F K) (x : Nat → K) (eB : Loc → K) (hm : Mismatch P (P.rhsState tol s).bdy eB) :
    let r := fun i => P.rhs tol s i - (P.multiply s' x).2 i
    ∃ bd psi, Solution P w Sol (fun o a c => (P.fixed c + P.scat (P.moments x) c) * P.mtod o a) x r
      (fun l => eB l - r (P.slot l)) bd psi ∧
      ∀ side < 2 * P.dim, P.bc side = .reflect → ∀ o < 2 ^ P.dim, Enters side o → ∀ a < P.na, ∀ i j,
        InFace P side i j → P.get (bd side o a) i j =
          x (P.slot ⟨side, o, a, i, j⟩) + P.get ((P.rhsState tol s).bdy side o a) i j := by
  have := residual_core h hp _ (rhs_of h hp tol s) s' x eB hm
  rw [off_eq hd] at this
  have e : P.source P.fixed (P.scat (P.moments x))
      = fun o a c => (P.fixed c + P.scat (P.moments x) c) * P.mtod o a := by
    funext o a
    exact source_eq hd _ _ o a
  rw [e] at this
  exact this

/-- `x` solves the linear system `A x = b` that the solver is given. -/
def SolvesSystem (P : Prob F K) (tol : K) (s s' : St F K) (x : Nat → K) : Prop :=
  ∀ i < P.N + P.bsize, (P.multiply s' x).2 i = P.rhs tol s i

/-- If the reflection of the uncollided fluxes has settled, an exact solution of the linear system is the
    scalar flux of the group with every side condition met. -/
theorem C124_solution (h : Sweeps P w Sol) (hp : ∀ s < 2 * P.dim, P.bc s ≠ .periodic) (hd : P.disc = [])
    (tol : K) (s s' : St F K) (x : Nat → K) (hm : Mismatch P (P.rhsState tol s).bdy fun _ => 0)
    (hx : SolvesSystem P tol s s' x) : IsFlux P w Sol x := by
  obtain ⟨bd, psi, hS, _⟩ := C124_residual h hp hd tol s s' x _ hm
  refine ⟨bd, psi, hS.cells, ?_, hS.vacuum, hS.given, ?_⟩
  · intro c hc
    rw [← hS.flux c hc]
    rw [hx c (by omega)]
    ring
  · intro side hs hb o ho he o' hmm a ha i j hi
    rw [hS.reflect side hs hb o ho he o' hmm a ha i j hi]
    have hl := (mem_locs h side o a i j).2 ⟨hs, hb, ho, he, ha, hi⟩
    dsimp only
    rw [hx _ (slot_spec h _ hl).2.1]
    ring

/-! ### Every solution is reached -/

/-- Face-wise combination of two containers. -/
def Prob.comb (P : Prob F K) (α β : K) (b1 b2 : Bd F) : Bd F :=
  fun side o a => P.face fun i j => α * P.get (b1 side o a) i j + β * P.get (b2 side o a) i j

theorem get_comb (h : Sweeps P w Sol) (α β : K) (b1 b2 : Bd F) (side : Nat) (hs : side < 2 * P.dim) (o a i j : Nat)
    (hi : InFace P side i j) : P.get (P.comb α β b1 b2 side o a) i j =
      α * P.get (b1 side o a) i j + β * P.get (b2 side o a) i j := h.face side hs _ i j hi

/-- What a sweep without updates returns is fixed by its source and the entering fluxes: if `bd`, `psi` satisfy
    the same cell equations with the same entering fluxes, leaving fluxes and scalar flux agree. -/
theorem sweep_unique (h : Sweeps P w Sol) (src) (s0 : St F K) (bd : Bd F) (psi : Nat → Nat → Nat → K)
    (hc : ∀ o < 2 ^ P.dim, ∀ a < P.na, Sol (src o a) o a (fun f => bd f o a) (psi o a))
    (hin : ∀ side < 2 * P.dim, ∀ o < 2 ^ P.dim, Enters side o → ∀ a < P.na, ∀ i j, InFace P side i j →
      P.get ((P.sweep false src s0).bdy side o a) i j = P.get (bd side o a) i j) :
    (∀ side < 2 * P.dim, ∀ o < 2 ^ P.dim, ¬ Enters side o → ∀ a < P.na, ∀ i j, InFace P side i j →
      P.get ((P.sweep false src s0).bdy side o a) i j = P.get (bd side o a) i j) ∧
    ∀ c < P.N, (P.sweep false src s0).phi c =
      ∑ o ∈ range (2 ^ P.dim), ∑ a ∈ range P.na, w a * psi o a c := by
  obtain ⟨p1, c1, f1⟩ := h.solves false src s0
  have hd := fun o (ho : o < 2 ^ P.dim) a (ha : a < P.na) =>
    h.det (src o a) o a _ _ _ _ ho (c1 o ho a ha) (hc o ho a ha)
      (fun side hs he i j hi => hin side hs o ho he a ha i j hi)
  refine ⟨fun side hs o ho he a ha i j hi => (hd o ho a ha).1 side hs he i j hi, fun c hc' => ?_⟩
  rw [f1 c hc']
  refine sum_congr rfl fun o ho => sum_congr rfl fun a ha => ?_
  rw [(hd o (mem_range.1 ho) a (mem_range.1 ha)).2 c hc']

theorem slot_cover (h : Sweeps P w Sol) (i : Nat) (h1 : P.N ≤ i) (h2 : i < P.N + P.bsize) :
    ∃ l ∈ P.locs, P.slot l = i := by
  have hlt : i - P.N < P.locs.length := by rw [← bsize_eq h]; omega
  refine ⟨P.locs[i - P.N], List.getElem_mem hlt, ?_⟩
  unfold Prob.slot
  rw [(locs_nodup h).idxOf_getElem]
  omega

theorem complete_core (h : Sweeps P w Sol) (hp : ∀ s < 2 * P.dim, P.bc s ≠ .periodic)
    (R : St F K) (hR : RhsOf P R) (s' : St F K) (phi : Nat → K) (hm : Mismatch P R.bdy fun _ => 0)
    (bd : Bd F) (psi : Nat → Nat → Nat → K)
    (hS : Solution P w Sol (P.source P.fixed (P.scat (P.moments phi))) phi (fun _ => 0) (fun _ => 0) bd psi) :
    ∃ x, (∀ i < P.N + P.bsize, (P.off.multiply s' x).2 i = P.rhsVec R i) ∧ ∀ c < P.N, x c = phi c := by
  let x : Nat → K := fun i => if i < P.N then phi i else
    match P.locs[i - P.N]? with
    | some l => P.flat bd l - P.flat R.bdy l
    | none => 0
  have hxc : ∀ c < P.N, x c = phi c := fun c hc => if_pos hc
  have hxl : ∀ l ∈ P.locs, x (P.slot l) = P.flat bd l - P.flat R.bdy l := by
    intro l hl
    have : ¬ P.slot l < P.N := by have := (slot_spec h l hl).1; omega
    simp only [x, if_neg this]
    unfold Prob.slot
    rw [Nat.add_sub_cancel_left, List.getElem?_idxOf hl]
  have hmom : P.moments x = P.moments phi := by
    funext c
    unfold Prob.moments
    split
    · next hc => exact hxc c hc
    · rfl
  refine ⟨x, ?_, hxc⟩
  obtain ⟨s1, ⟨s0, e1⟩, m1, m2, m3⟩ := multiply_spec (sweeps_off h) hp s' x
  obtain ⟨upd, s2, b, e2, hs2⟩ := hR.last
  have e1' : s1 = P.sweep false (P.off.source (fun _ => 0) (P.scat (P.moments x))) s0 := e1
  have m2' : ∀ side < 2 * P.dim, ∀ o < 2 ^ P.dim, Enters side o → ∀ a < P.na, ∀ i j, InFace P side i j →
      P.get (s1.bdy side o a) i j = if P.refl side then x (P.slot ⟨side, o, a, i, j⟩) else 0 := m2
  have m3' : ∀ side < 2 * P.dim, P.bc side = .reflect → ∀ o < 2 ^ P.dim, Enters side o → ∀ o', Mirror P.dim side o o' →
      ∀ a < P.na, ∀ i j, InFace P side i j → (P.off.multiply s' x).2 (P.slot ⟨side, o, a, i, j⟩) =
        x (P.slot ⟨side, o, a, i, j⟩) - P.get (s1.bdy side o' a) i j := m3
  obtain ⟨psi2, c2, f2⟩ := h.solves upd (P.source P.fixed (fun _ => 0)) s2
  rw [← e2] at c2 f2
  have hside : ∀ side < 2 * P.dim, P.bc side ≠ .reflect → ∀ o < 2 ^ P.dim, Enters side o → ∀ a < P.na,
      R.bdy side o a = Boundary.set P.dim P.na P.bc (P.clear b) side o a := by
    intro side hs hb o ho he a ha
    rw [e2, sweep_keep h hp upd _ s2 o a ho ha side hs he hb]
    exact hs2 side hs hb o ho he a ha
  obtain ⟨u1, u2⟩ := sweep_unique h (P.off.source (fun _ => 0) (P.scat (P.moments x))) s0
    (P.comb 1 (-1) bd R.bdy) (fun o a c => psi o a c - psi2 o a c)
    (by
      intro o ho a ha
      refine h.lin 1 (-1) _ _ _ o a _ _ _ _ _ _ ho (hS.cells o ho a ha) (c2 o ho a ha) ?_ (fun _ => by ring)
        (fun side hs i j hi => get_comb h 1 (-1) _ _ side hs o a i j hi)
      intro c _
      rw [source_add P.fixed, ← hmom]
      ring)
    (by
      intro side hs o ho he a ha i j hi
      rw [← e1', m2' side hs o ho he a ha i j hi, get_comb h 1 (-1) _ _ side hs o a i j hi]
      by_cases hb : P.bc side = .reflect
      · rw [if_pos ((refl_iff side).2 hb), hxl _ ((mem_locs h side o a i j).2 ⟨hs, hb, ho, he, ha, hi⟩)]
        unfold Prob.flat
        ring
      · rw [if_neg (fun h' => hb ((refl_iff side).1 h')), hside side hs hb o ho he a ha]
        cases hbb : P.bc side with
        | reflect => exact absurd hbb hb
        | periodic => exact absurd hbb (hp side hs)
        | vacuum =>
          rw [hS.vacuum side hs hbb o ho he a ha i j hi,
            (Boundary.C67_set P.dim h.d1 h.d3 P.na P.bc _).2 side o a (by
              rintro ⟨_, ⟨ps, h'⟩, _⟩; rw [hbb] at h'; cases h'), get_clear h _ _ _ _ _ _ hs ho ha hi]
          ring
        | fixed ps =>
          obtain ⟨io, _, hio⟩ := Boundary.C67_set_covers P.dim h.d1 h.d3 side hs o ho he
          rw [hS.given side hs ps hbb o ho io hio a ha i j hi,
            (Boundary.C67_set P.dim h.d1 h.d3 P.na P.bc _).1 side ps hs hbb io o a hio ha]
          ring)
  rw [← e1'] at u1 u2
  intro i hi
  by_cases hc : i < P.N
  · rw [m1 i hc, u2 i hc, hxc i hc]
    have := hS.flux i hc
    rw [add_zero] at this
    unfold Prob.rhsVec
    rw [if_pos hc, this, f2 i hc]
    simp only [mul_sub, sum_sub_distrib]
    ring
  · obtain ⟨l, hl, rfl⟩ := slot_cover h i (by omega) hi
    obtain ⟨side, o, a, i', j⟩ := l
    obtain ⟨hs, hb, ho, he, ha, hf⟩ := (mem_locs h side o a i' j).1 hl
    obtain ⟨o', hmm, hne⟩ := Boundary.C30_mirror_exists P.dim h.d1 h.d3 side hs o ho he
    rw [m3' side hs hb o ho he o' hmm a ha i' j hf, u1 side hs o' hmm.1 hne a ha i' j hf,
      get_comb h 1 (-1) _ _ side hs o' a i' j hf, hxl _ hl]
    have k1 := hS.reflect side hs hb o ho he o' hmm a ha i' j hf
    have k2 := hm side hs hb o ho he o' hmm a ha i' j hf
    unfold Prob.rhsVec Prob.flat
    rw [if_neg hc]
    dsimp only at k1 k2 ⊢
    linear_combination k1 - k2

/-- Conversely every solution of the group's equations gives a solution of the linear system with the same scalar
    flux. -/
theorem C124_complete (h : Sweeps P w Sol) (hp : ∀ s < 2 * P.dim, P.bc s ≠ .periodic) (hd : P.disc = [])
    (tol : K) (s s' : St F K) (phi : Nat → K) (hm : Mismatch P (P.rhsState tol s).bdy fun _ => 0)
    (hphi : IsFlux P w Sol phi) : ∃ x, SolvesSystem P tol s s' x ∧ ∀ c < P.N, x c = phi c := by
  obtain ⟨bd, psi, hS⟩ := hphi
  have e : P.source P.fixed (P.scat (P.moments phi))
      = fun o a c => (P.fixed c + P.scat (P.moments phi) c) * P.mtod o a := by
    funext o a
    exact source_eq hd _ _ o a
  rw [← e] at hS
  have := complete_core h hp _ (rhs_of h hp tol s) s' phi hm bd psi hS
  rwa [off_eq hd] at this

/-- So when the linear system has one solution, the group has one scalar flux, and any other solver that finds
    one finds the same. -/
theorem C124_unique (h : Sweeps P w Sol) (hp : ∀ s < 2 * P.dim, P.bc s ≠ .periodic) (hd : P.disc = [])
    (tol : K) (s s' : St F K) (x phi : Nat → K) (hm : Mismatch P (P.rhsState tol s).bdy fun _ => 0)
    (hone : ∀ x x', SolvesSystem P tol s s' x → SolvesSystem P tol s s' x' → ∀ i < P.N, x i = x' i)
    (hx : SolvesSystem P tol s s' x) (hphi : IsFlux P w Sol phi) : ∀ c < P.N, x c = phi c := by
  obtain ⟨x', h1, h2⟩ := C124_complete h hp hd tol s s' phi hm hphi
  exact fun c hc => (hone x x' hx h1 c hc).trans (h2 c hc)

/-! ### The operator as a function -/

/-- What the operator returns depends only on the vector, not on what earlier sweeps left in boundary and
    fluxes. -/
theorem C124_operator_pure (h : Sweeps P w Sol) (hp : ∀ s < 2 * P.dim, P.bc s ≠ .periodic) (s s' : St F K)
    (x : Nat → K) : ∀ i < P.N + P.bsize, (P.multiply s x).2 i = (P.multiply s' x).2 i := by
  obtain ⟨s1, ⟨s0, e1⟩, m1, m2, m3⟩ := multiply_spec h hp s x
  obtain ⟨t1, ⟨t0, g1⟩, n1, n2, n3⟩ := multiply_spec h hp s' x
  obtain ⟨psi, c, f⟩ := h.solves false (P.source (fun _ => 0) (P.scat (P.moments x))) t0
  rw [← g1] at c f
  obtain ⟨u1, u2⟩ := sweep_unique h (P.source (fun _ => 0) (P.scat (P.moments x))) s0 t1.bdy psi c (by
    intro side hs o ho he a ha i j hi
    rw [← e1, m2 side hs o ho he a ha i j hi, n2 side hs o ho he a ha i j hi])
  rw [← e1] at u1 u2
  intro i hi
  by_cases hc : i < P.N
  · rw [m1 i hc, n1 i hc, u2 i hc, f i hc]
  · obtain ⟨l, hl, rfl⟩ := slot_cover h i (by omega) hi
    obtain ⟨side, o, a, i', j⟩ := l
    obtain ⟨hs, hb, ho, he, ha, hf⟩ := (mem_locs h side o a i' j).1 hl
    obtain ⟨o', hmm, hne⟩ := Boundary.C30_mirror_exists P.dim h.d1 h.d3 side hs o ho he
    rw [m3 side hs hb o ho he o' hmm a ha i' j hf, n3 side hs hb o ho he o' hmm a ha i' j hf,
      u1 side hs o' hmm.1 hne a ha i' j hf]

/-- The problem with a given scatter source. -/
def Prob.scatBy (P : Prob F K) (q : Nat → K) : Prob F K := { P with scat := fun _ => q }

omit [LinearOrder K] in
theorem multiply_spec_by (h : Sweeps P w Sol) (hp : ∀ s < 2 * P.dim, P.bc s ≠ .periodic) (q : Nat → K) (s : St F K)
    (x : Nat → K) :
    ∃ s1, (∃ s0, s1 = P.sweep false (P.source (fun _ => 0) q) s0) ∧
      (∀ c < P.N, ((P.scatBy q).multiply s x).2 c = x c - s1.phi c) ∧
      (∀ side < 2 * P.dim, ∀ o < 2 ^ P.dim, Enters side o → ∀ a < P.na, ∀ i j, InFace P side i j →
        P.get (s1.bdy side o a) i j = if P.refl side then x (P.slot ⟨side, o, a, i, j⟩) else 0) ∧
      ∀ side < 2 * P.dim, P.bc side = .reflect → ∀ o < 2 ^ P.dim, Enters side o → ∀ o', Mirror P.dim side o o' →
        ∀ a < P.na, ∀ i j, InFace P side i j →
        ((P.scatBy q).multiply s x).2 (P.slot ⟨side, o, a, i, j⟩) =
          x (P.slot ⟨side, o, a, i, j⟩) - P.get (s1.bdy side o' a) i j :=
  multiply_spec (P := P.scatBy q) (w := w) (Sol := Sol)
    ⟨h.d1, h.d3, h.order, h.face, h.other, h.inc, h.solves, h.lin, h.det⟩ hp s x

theorem linear_core (h : Sweeps P w Sol) (hp : ∀ s < 2 * P.dim, P.bc s ≠ .periodic) (hd : P.disc = [])
    (α β : K) (x y z : Nat → K) (hz : ∀ i < P.N + P.bsize, z i = α * x i + β * y i)
    (qx qy qz : Nat → K) (hscat : ∀ c < P.N, qz c = α * qx c + β * qy c) (s1 s2 s3 : St F K) : ∀ i < P.N + P.bsize,
      ((P.scatBy qz).multiply s3 z).2 i
        = α * ((P.scatBy qx).multiply s1 x).2 i + β * ((P.scatBy qy).multiply s2 y).2 i := by
  obtain ⟨a1, ⟨a0, ea⟩, am1, am2, am3⟩ := multiply_spec_by h hp qx s1 x
  obtain ⟨b1, ⟨b0, eb⟩, bm1, bm2, bm3⟩ := multiply_spec_by h hp qy s2 y
  obtain ⟨c1, ⟨c0, ec⟩, cm1, cm2, cm3⟩ := multiply_spec_by h hp qz s3 z
  obtain ⟨pa, ca, fa⟩ := h.solves false (P.source (fun _ => 0) qx) a0
  obtain ⟨pb, cb, fb⟩ := h.solves false (P.source (fun _ => 0) qy) b0
  rw [← ea] at ca fa
  rw [← eb] at cb fb
  obtain ⟨u1, u2⟩ := sweep_unique h (P.source (fun _ => 0) qz) c0 (P.comb α β a1.bdy b1.bdy)
    (fun o a c => α * pa o a c + β * pb o a c)
    (by
      intro o ho a ha
      refine h.lin α β _ _ _ o a _ _ _ _ _ _ ho (ca o ho a ha) (cb o ho a ha) ?_ (fun _ => rfl)
        (fun side hs i j hi => get_comb h α β _ _ side hs o a i j hi)
      intro c hcN
      simp only [Prob.source, sweepSource, hd, List.foldl_nil, hscat c hcN]
      ring)
    (by
      intro side hs o ho he a ha i j hi
      rw [← ec, cm2 side hs o ho he a ha i j hi, get_comb h α β _ _ side hs o a i j hi,
        am2 side hs o ho he a ha i j hi, bm2 side hs o ho he a ha i j hi]
      by_cases hb : P.bc side = .reflect
      · rw [if_pos ((refl_iff side).2 hb), if_pos ((refl_iff side).2 hb), if_pos ((refl_iff side).2 hb)]
        exact hz _ (slot_spec h _ ((mem_locs h side o a i j).2 ⟨hs, hb, ho, he, ha, hi⟩)).2.1
      · rw [if_neg (fun h' => hb ((refl_iff side).1 h')), if_neg (fun h' => hb ((refl_iff side).1 h')),
          if_neg (fun h' => hb ((refl_iff side).1 h'))]
        ring)
  rw [← ec] at u1 u2
  intro i hi
  by_cases hc : i < P.N
  · rw [am1 i hc, bm1 i hc, cm1 i hc, u2 i hc, fa i hc, fb i hc, hz i hi]
    simp only [mul_add, sum_add_distrib, mul_left_comm _ α, mul_left_comm _ β, ← mul_sum]
    ring
  · obtain ⟨l, hl, rfl⟩ := slot_cover h i (by omega) hi
    obtain ⟨side, o, a, i', j⟩ := l
    obtain ⟨hs, hb, ho, he, ha, hf⟩ := (mem_locs h side o a i' j).1 hl
    obtain ⟨o', hmm, hne⟩ := Boundary.C30_mirror_exists P.dim h.d1 h.d3 side hs o ho he
    rw [am3 side hs hb o ho he o' hmm a ha i' j hf, bm3 side hs hb o ho he o' hmm a ha i' j hf,
      cm3 side hs hb o ho he o' hmm a ha i' j hf, u1 side hs o' hmm.1 hne a ha i' j hf,
      get_comb h α β _ _ side hs o' a i' j hf, hz _ hi]
    ring

/-- With a linear within-group source and no discrete sources the operator is linear, reflecting sides
    included. -/
theorem C124_operator_linear (h : Sweeps P w Sol) (hp : ∀ s < 2 * P.dim, P.bc s ≠ .periodic) (hd : P.disc = [])
    (α β : K) (x y z : Nat → K) (hz : ∀ i < P.N + P.bsize, z i = α * x i + β * y i)
    (hscat : ∀ c < P.N, P.scat (P.moments z) c = α * P.scat (P.moments x) c + β * P.scat (P.moments y) c)
    (s1 s2 s3 : St F K) : ∀ i < P.N + P.bsize,
      (P.multiply s3 z).2 i = α * (P.multiply s1 x).2 i + β * (P.multiply s2 y).2 i :=
  linear_core h hp hd α β x y z hz _ _ _ hscat s1 s2 s3

/-! ### Settled reflection, the sweeps after the solve, and source iteration -/

/-- A pass with boundary updates that leaves the fluxes leaving through reflecting sides as they were leaves
    the entering fluxes equal to their mirror images. -/
theorem C124_settled (h : Sweeps P w Sol) (hp : ∀ s < 2 * P.dim, P.bc s ≠ .periodic) (src) (s : St F K)
    (hq : ∀ side < 2 * P.dim, P.bc side = .reflect → ∀ o < 2 ^ P.dim, ¬ Enters side o → ∀ a < P.na,
      (P.sweep true src s).bdy side o a = s.bdy side o a) :
    Mismatch P (P.sweep true src s).bdy fun _ => 0 := by
  intro side hs hb o ho he o' hm a ha i j _
  have hne := Boundary.mirror_leaves P.dim h.d1 h.d3 side hs o o' ho he hm
  rcases sweep_reflect h hp src s o o' a ho ha side hs he hb hm with h1 | h1
  · rw [h1, ← hq side hs hb o' hm.1 hne a ha, sub_self]
  · rw [h1, sub_self]

/-- In general the mismatch after a pass is zero or the change of the mirror flux during the pass. -/
theorem C124_mismatch (h : Sweeps P w Sol) (hp : ∀ s < 2 * P.dim, P.bc s ≠ .periodic) (src) (s : St F K)
    (side : Nat) (hs : side < 2 * P.dim) (hb : P.bc side = .reflect) (o : Nat) (ho : o < 2 ^ P.dim)
    (he : Enters side o) (o' : Nat) (hm : Mirror P.dim side o o') (a : Nat) (ha : a < P.na) (i j : Nat) :
    let b := (P.sweep true src s).bdy
    P.get (b side o a) i j - P.get (b side o' a) i j = 0 ∨
    P.get (b side o a) i j - P.get (b side o' a) i j = P.get (s.bdy side o' a) i j - P.get (b side o' a) i j := by
  intro b
  rcases sweep_reflect h hp src s o o' a ho ha side hs he hb hm with h1 | h1
  · right; simp only [b, h1]
  · left; simp only [b]; rw [h1, sub_self]

/-- Side conditions that do not depend on the flux inside: nothing enters at a vacuum side, the given flux enters
    at a fixed side. -/
structure Sides (P : Prob F K) (bd : Bd F) : Prop where
  vacuum : ∀ side < 2 * P.dim, P.bc side = .vacuum → ∀ o < 2 ^ P.dim, Enters side o → ∀ a < P.na, ∀ i j,
    InFace P side i j → P.get (bd side o a) i j = 0
  given : ∀ side < 2 * P.dim, ∀ ps, P.bc side = .fixed ps → ∀ o < 2 ^ P.dim, ∀ io,
    (incidentOctants P.dim side)[io]? = some o → ∀ a < P.na, ∀ i j, InFace P side i j →
    P.get (bd side o a) i j = P.get (ps io a) i j

/-- Nothing enters at a vacuum side. -/
def NoneIn (P : Prob F K) (bd : Bd F) : Prop :=
  ∀ side < 2 * P.dim, P.bc side = .vacuum → ∀ o < 2 ^ P.dim, Enters side o → ∀ a < P.na, ∀ i j,
    InFace P side i j → P.get (bd side o a) i j = 0

theorem sides_same (h : Sweeps P w Sol) {b b' : Bd F} (hs : SameSides P b b') (hb' : Sides P b') : Sides P b := by
  constructor
  · intro side hs' hb o ho he a ha i j hi
    rw [hs side hs' (by rw [hb]; simp) o ho he a ha]
    exact hb'.vacuum side hs' hb o ho he a ha i j hi
  · intro side hs' ps hb o ho io hio a ha i j hi
    rw [hs side hs' (by rw [hb]; simp) o ho (enters_of_incident h side hs' io o hio) a ha]
    exact hb'.given side hs' ps hb o ho io hio a ha i j hi

theorem sides_sweep (h : Sweeps P w Sol) (hp : ∀ s < 2 * P.dim, P.bc s ≠ .periodic) (upd src) (s : St F K)
    (hs : Sides P s.bdy) : Sides P (P.sweep upd src s).bdy :=
  sides_same h (fun side hs' hb o ho he a ha => sweep_keep h hp upd src s o a ho ha side hs' he hb) hs

theorem sides_set (h : Sweeps P w Sol) (b : Bd F) (hb : NoneIn P b) : Sides P (Boundary.set P.dim P.na P.bc b) := by
  constructor
  · intro side hs hv o ho he a ha i j hi
    rw [(Boundary.C67_set P.dim h.d1 h.d3 P.na P.bc _).2 side o a (by
      rintro ⟨_, ⟨ps, h'⟩, _⟩; rw [hv] at h'; cases h')]
    exact hb side hs hv o ho he a ha i j hi
  · intro side hs ps hf o ho io hio a ha i j hi
    rw [(Boundary.C67_set P.dim h.d1 h.d3 P.na P.bc _).1 side ps hs hf io o a hio ha]

/-- What an operator application and the right-hand side leave behind lets nothing in at vacuum sides. -/
theorem none_multiply (h : Sweeps P w Sol) (hp : ∀ s < 2 * P.dim, P.bc s ≠ .periodic) (s : St F K) (x : Nat → K) :
    NoneIn P (P.multiply s x).1.bdy := by
  intro side hs hv o ho he a ha i j hi
  have hnr : P.bc side ≠ .reflect := by rw [hv]; simp
  have hn : ¬ (⟨side, o, a, i, j⟩ : Loc) ∈ P.locs := fun h' => hnr ((mem_locs h _ _ _ _ _).1 h').2.1
  unfold Prob.multiply
  dsimp only
  cases hr : P.hasRefl with
  | true =>
    simp only [if_true]
    rw [(Boundary.C30_boundary_update P.dim h.d1 h.d3 P.na P.bc hp _).2 side o a fun h' => hnr h'.2.1,
      sweep_off h _ _ o a ho ha side hs he]
    change P.get (P.setIn x (P.clear s.bdy) side o a) i j = 0
    rw [get_setIn h x _ side o a i j hs hi, if_neg hn, get_clear h _ _ _ _ _ _ hs ho ha hi]
  | false =>
    simp only [Bool.false_eq_true, if_false]
    rw [sweep_off h _ _ o a ho ha side hs he]
    exact get_clear h _ _ _ _ _ _ hs ho ha hi

theorem sides_rhs (h : Sweeps P w Sol) (hp : ∀ s < 2 * P.dim, P.bc s ≠ .periodic) (tol : K) (s : St F K) :
    Sides P (P.rhsState tol s).bdy := by
  obtain ⟨upd, s2, e2, _, hs2⟩ := rhs_last h hp tol s
  rw [e2]
  exact sides_sweep h hp upd _ s2 (sides_same h hs2 (sides_set h _
    fun side hs _ o ho _ a ha i j hi => get_clear h _ _ _ _ _ _ hs ho ha hi))

/-- With the boundary option on, the sweeps after the solve leave boundary and angular fluxes that solve the
    group's equations with the scatter source of the solution `x`, up to the reflection mismatch `eB`; `x`
    itself stays in the state.  The last pass is `s' ↦ sweep`, and if it changed no flux leaving through a
    reflecting side, the mismatch is zero.  `s` is what the last operator application (`none_multiply`) or, for
    a zero source, the right-hand side (`sides_rhs`) left. -/
theorem C124_finish (h : Sweeps P w Sol) (hp : ∀ s < 2 * P.dim, P.bc s ≠ .periodic) (hd : P.disc = []) (tol : K)
    (s : St F K) (hv : NoneIn P s.bdy) (x : Nat → K) :
    let out := P.finish true tol s x
    (∀ c < P.N, out.1 c = x c) ∧
    (∀ eB, Mismatch P out.2.bdy eB → ∃ psi, Solution P w Sol
      (fun o a c => (P.fixed c + P.scat (P.moments x) c) * P.mtod o a) out.2.phi (fun _ => 0) eB out.2.bdy psi) ∧
    ∃ s', out.2 = P.sweep true (P.source P.fixed (P.scat (P.moments x))) s' ∧
      ((∀ side < 2 * P.dim, P.bc side = .reflect → ∀ o < 2 ^ P.dim, ¬ Enters side o → ∀ a < P.na,
        out.2.bdy side o a = s'.bdy side o a) → Mismatch P out.2.bdy fun _ => 0) := by
  intro out
  let s1 : St F K := if P.hasRefl then { s with bdy := P.setIn x s.bdy } else s
  have h1 : NoneIn P s1.bdy := by
    intro side hs hb o ho he a ha i j hi
    simp only [s1]
    cases hr : P.hasRefl with
    | true =>
      simp only [if_true]
      rw [get_setIn h x _ side o a i j hs hi, if_neg (fun h' => by
        have := ((mem_locs h _ _ _ _ _).1 h').2.1; rw [hb] at this; cases this)]
      exact hv side hs hb o ho he a ha i j hi
    | false =>
      simp only [Bool.false_eq_true, if_false]
      exact hv side hs hb o ho he a ha i j hi
  obtain ⟨s', e, hss⟩ := loop_last h hp (P.source P.fixed (P.scat (P.moments x))) tol 999
    ⟨Boundary.set P.dim P.na P.bc s1.bdy, P.moments x, s1.psi⟩
  have eo : out.2 = P.sweep true (P.source P.fixed (P.scat (P.moments x))) s' := e
  have hS : Sides P out.2.bdy := by
    rw [eo]
    exact sides_sweep h hp true _ s' (sides_same h hss (sides_set h _ h1))
  refine ⟨fun c hc => if_pos hc, ?_, s', eo, ?_⟩
  · intro eB hm
    obtain ⟨psi, c, f⟩ := h.solves true (P.source P.fixed (P.scat (P.moments x))) s'
    rw [← eo] at c f
    refine ⟨psi, ?_, fun i hi => by rw [add_zero, f i hi], hS.vacuum, hS.given, hm⟩
    intro o ho a ha
    rw [← source_eq hd]
    exact c o ho a ha
  · intro hq
    rw [eo] at hq ⊢
    exact C124_settled h hp _ s' hq

/-- Without the option the boundary holds, at reflecting sides, the entering flux of the solution less its
    uncollided part. -/
theorem C124_boundary_partial (h : Sweeps P w Sol) (hp : ∀ s < 2 * P.dim, P.bc s ≠ .periodic) (hd : P.disc = [])
    (tol tol' : K) (s s' t : St F K) (x : Nat → K) (hm : Mismatch P (P.rhsState tol s).bdy fun _ => 0)
    (hx : SolvesSystem P tol s s' x) :
    ∃ bd psi, Solution P w Sol (fun o a c => (P.fixed c + P.scat (P.moments x) c) * P.mtod o a) x
      (fun _ => 0) (fun _ => 0) bd psi ∧
    ∀ side < 2 * P.dim, P.bc side = .reflect → ∀ o < 2 ^ P.dim, Enters side o → ∀ a < P.na, ∀ i j,
      InFace P side i j → P.get ((P.finish false tol' t x).2.bdy side o a) i j =
        P.get (bd side o a) i j - P.get ((P.rhsState tol s).bdy side o a) i j := by
  obtain ⟨bd, psi, hS, hb⟩ := C124_residual h hp hd tol s s' x _ hm
  refine ⟨bd, psi, ⟨hS.cells, ?_, hS.vacuum, hS.given, ?_⟩, ?_⟩
  · intro c hc
    rw [← hS.flux c hc, hx c (by omega)]
    ring
  · intro side hs hb o ho he o' hmm a ha i j hi
    rw [hS.reflect side hs hb o ho he o' hmm a ha i j hi]
    dsimp only
    rw [hx _ (slot_spec h _ ((mem_locs h side o a i j).2 ⟨hs, hb, ho, he, ha, hi⟩)).2.1]
    ring
  · intro side hs hr o ho he a ha i j hi
    rw [hb side hs hr o ho he a ha i j hi]
    have hR : P.hasRefl = true := hasRefl_iff.2 ⟨side, hs, hr⟩
    unfold Prob.finish
    simp only [hR, if_true, Bool.false_eq_true, if_false]
    rw [get_setIn h x _ side o a i j hs hi, if_pos ((mem_locs h _ _ _ _ _).2 ⟨hs, hr, ho, he, ha, hi⟩)]
    ring

/-- Source iteration keeps the side conditions of vacuum and fixed sides. -/
theorem C124_si_sides (h : Sweeps P w Sol) (hp : ∀ s < 2 * P.dim, P.bc s ≠ .periodic) (tol : K) (k : Nat)
    (s : St F K) (hs : Sides P s.bdy) :
    ∃ s', P.siLoop tol (k + 1) s = P.siPass s' ∧ Sides P s'.bdy := by
  induction k generalizing s with
  | zero =>
    refine ⟨s, ?_, hs⟩
    unfold Prob.siLoop
    dsimp only
    split
    · rfl
    · rfl
  | succ k ih =>
    rw [Prob.siLoop]
    split
    · exact ⟨s, rfl, hs⟩
    · exact ih _ (sides_sweep h hp true _ s hs)

/-- A pass of source iteration that leaves cell fluxes and the fluxes leaving through reflecting sides as they
    were has found the scalar flux of the group. -/
theorem C124_si (h : Sweeps P w Sol) (hp : ∀ s < 2 * P.dim, P.bc s ≠ .periodic) (hd : P.disc = []) (s : St F K)
    (hs : Sides P s.bdy) (hphi : ∀ c < P.N, (P.siPass s).phi c = s.phi c)
    (hq : ∀ side < 2 * P.dim, P.bc side = .reflect → ∀ o < 2 ^ P.dim, ¬ Enters side o → ∀ a < P.na,
      (P.siPass s).bdy side o a = s.bdy side o a) : IsFlux P w Sol s.phi := by
  obtain ⟨psi, c, f⟩ := h.solves true (P.source P.fixed (P.scat (P.moments s.phi))) s
  have hS := sides_sweep h hp true (P.source P.fixed (P.scat (P.moments s.phi))) s hs
  refine ⟨(P.siPass s).bdy, psi, ?_, fun i hi => ?_, hS.vacuum, hS.given, C124_settled h hp _ s hq⟩
  · intro o ho a ha
    rw [← source_eq hd]
    exact c o ho a ha
  · rw [add_zero, ← hphi i hi]
    exact f i hi

/-- So where the linear system has one solution, source iteration and GMRES agree. -/
theorem C124_solvers_agree (h : Sweeps P w Sol) (hp : ∀ s < 2 * P.dim, P.bc s ≠ .periodic) (hd : P.disc = [])
    (tol : K) (s s' t : St F K) (x : Nat → K) (hm : Mismatch P (P.rhsState tol s).bdy fun _ => 0)
    (hone : ∀ x x', SolvesSystem P tol s s' x → SolvesSystem P tol s s' x' → ∀ i < P.N, x i = x' i)
    (hx : SolvesSystem P tol s s' x) (ht : Sides P t.bdy) (hphi : ∀ c < P.N, (P.siPass t).phi c = t.phi c)
    (hq : ∀ side < 2 * P.dim, P.bc side = .reflect → ∀ o < 2 ^ P.dim, ¬ Enters side o → ∀ a < P.na,
      (P.siPass t).bdy side o a = t.bdy side o a) : ∀ c < P.N, x c = t.phi c :=
  C124_unique h hp hd tol s s' x t.phi hm hone hx (C124_si h hp hd t ht hphi hq)

end order

end main

/-! ## The three geometries -/

section geom
open Detran.Sweep (LinEq1 LinEq2 LinEq3 Solves1 Solves2 Solves3)
variable {K : Type} [Field K] [LinearOrder K]

/-- In 1-D, with any linear scheme and any order of the two half-ranges, GMRES' exact solution is the flux of the
    group. -/
theorem C124_1D (sch : Nat → Nat → K → K → K × K) (hsch : ∀ a i, LinEq1 (sch a i)) (w : Nat → K) (nx na : Nat)
    (up : Bool) (bc : Nat → BC K) (order : List Nat) (hord : order.Perm (List.range 2)) (scat fixed mtod)
    (hp : ∀ s < 2, bc s ≠ .periodic) (tol : K) (s s' : St K K) (x : Nat → K) :
    let P := prob1 sch w nx na up bc order scat fixed mtod []
    Mismatch P (P.rhsState tol s).bdy (fun _ => 0) → SolvesSystem P tol s s' x →
    IsFlux P w (fun q o a b p => Solves1 nx (fun i => sch a i (q i)) o b p) x :=
  fun hm hx => C124_solution (sweeps1 sch hsch w nx na up bc order hord scat fixed mtod []) hp rfl tol s s' x hm hx

theorem C124_2D (sch : Nat → Nat → Nat → K → K × K → K × (K × K)) (hsch : ∀ a i j, LinEq2 (sch a i j))
    (w : Nat → K) (nx ny na : Nat) (up : Bool) (bc : Nat → BC (Nat → K)) (order : List Nat)
    (hord : order.Perm (List.range 4)) (scat fixed mtod) (hp : ∀ s < 4, bc s ≠ .periodic) (tol : K)
    (s s' : St (Nat → K) K) (x : Nat → K) :
    let P := prob2 sch w nx ny na up bc order scat fixed mtod []
    Mismatch P (P.rhsState tol s).bdy (fun _ => 0) → SolvesSystem P tol s s' x →
    IsFlux P w (fun q o a b p => Solves2 nx ny (fun i j => sch a i j (q (i + j * nx))) o b p) x :=
  fun hm hx => C124_solution (sweeps2 sch hsch w nx ny na up bc order hord scat fixed mtod []) hp rfl tol s s' x hm hx

theorem C124_3D (sch : Nat → Nat → Nat → Nat → K → K × K × K → K × (K × K × K))
    (hsch : ∀ a i j k, LinEq3 (sch a i j k)) (w : Nat → K) (nx ny nz na : Nat) (hfit : nx ≤ 2 ^ 32) (up : Bool)
    (bc : Nat → BC (Nat → Nat → K)) (order : List Nat) (hord : order.Perm (List.range 8)) (scat fixed mtod)
    (hp : ∀ s < 6, bc s ≠ .periodic) (tol : K) (s s' : St (Nat → Nat → K) K) (x : Nat → K) :
    let P := prob3 sch w nx ny nz na up bc order scat fixed mtod []
    Mismatch P (P.rhsState tol s).bdy (fun _ => 0) → SolvesSystem P tol s s' x →
    IsFlux P w (fun q o a b p => Solves3 nx ny nz (fun i j k => sch a i j k (q (i + j * nx + k * nx * ny))) o b p) x :=
  fun hm hx => C124_solution (sweeps3 sch hsch w nx ny nz na hfit up bc order hord scat fixed mtod []) hp rfl
    tol s s' x hm hx

end geom

/-! ## Concrete cases -/

section cases
open Detran.Sweep (LinEq1 Solves1 entry exit posn)

/-- One cell, one angle per half-range, diamond differencing with `2 mu / dx = 2` and total cross section one, unit
    source. -/
def dd (_ _ : Nat) (q e : ℚ) : ℚ × ℚ := ((q + 2 * e) / 3, 2 * ((q + 2 * e) / 3) - e)

theorem dd_lin : ∀ a i, LinEq1 (dd a i) := by
  intro a i α β s s' p p'
  unfold dd
  exact Prod.ext (by ring) (by ring)

def slab (bc : Nat → BC ℚ) (sc : ℚ) : Prob ℚ ℚ :=
  prob1 dd (fun _ => 1 / 2) 1 1 true bc [1, 0] (fun phi c => sc * phi c) (fun _ => 1) (fun _ _ => 1) []

theorem slab_sweeps (bc : Nat → BC ℚ) (sc : ℚ) : Sweeps (slab bc sc) (fun _ => 1 / 2)
    (fun q o a b p => Solves1 1 (fun i => dd a i (q i)) o b p) :=
  sweeps1 dd dd_lin _ 1 1 true bc [1, 0] (by decide) _ _ _ _

/-- Reflecting on the left, vacuum on the right. -/
def half : Nat → BC ℚ := fun s => if s = 0 then .reflect else .vacuum

def zeros : St ℚ ℚ := ⟨fun _ _ _ => 0, fun _ => 0, fun _ _ _ => 0⟩

theorem half_np : ∀ s < 2, half s ≠ .periodic := by
  intro s hs
  unfold half
  split <;> simp

theorem half_mismatch (sc : ℚ) (b : Bd ℚ) (k : ∀ o < 2, ∀ o' < 2, Enters 0 o → ¬ Enters 0 o' → b 0 o 0 - b 0 o' 0 = 0) :
    Mismatch (slab half sc) b fun _ => 0 := by
  intro side hs hb o ho he o' hm a ha i j _
  have ha' : a < 1 := ha
  obtain rfl : a = 0 := by omega
  have h0 : side = 0 := by
    by_contra h
    have : (slab half sc).bc side = .vacuum := if_neg h
    rw [this] at hb; cases hb
  subst h0
  exact k o ho o' hm.1 he (Boundary.mirror_leaves 1 (by decide) (by decide) 0 hs o o' ho he hm)

theorem half_settled0 : Mismatch (slab half 0) ((slab half 0).rhsState (1 / 1000) zeros).bdy fun _ => 0 :=
  half_mismatch 0 _ (by decide +kernel)

theorem half_settled : Mismatch (slab half (1 / 2)) ((slab half (1 / 2)).rhsState (1 / 1000) zeros).bdy fun _ => 0 :=
  half_mismatch (1 / 2) _ (by decide +kernel)

/-- With scattering ratio one half the linear system is solved by flux `10/13` and boundary unknown `10/39`. -/
example : (∀ i < 2, ((slab half (1 / 2)).multiply zeros fun i => if i = 0 then 10 / 13 else 10 / 39).2 i =
    (slab half (1 / 2)).rhs (1 / 1000) zeros i) ∧ (slab half (1 / 2)).N + (slab half (1 / 2)).bsize = 2 := by
  decide +kernel

example : IsFlux (slab half (1 / 2)) (fun _ => 1 / 2) (fun q o a b p => Solves1 1 (fun i => dd a i (q i)) o b p)
    (fun i => if i = 0 then 10 / 13 else 10 / 39) :=
  C124_1D dd dd_lin _ 1 1 true half [1, 0] (by decide) _ _ _ half_np (1 / 1000) zeros zeros _
    half_settled (by unfold SolvesSystem; decide +kernel)

/-- The slab has one flux. -/
theorem half_flux (phi : Nat → ℚ) (h : IsFlux (slab half (1 / 2)) (fun _ => 1 / 2)
    (fun q o a b p => Solves1 1 (fun i => dd a i (q i)) o b p) phi) : phi 0 = 10 / 13 := by
  obtain ⟨bd, psi, hS⟩ := h
  obtain ⟨V, v1, v2, v3⟩ := hS.cells 0 (by decide) 0 (by decide)
  obtain ⟨U, u1, u2, u3⟩ := hS.cells 1 (by decide) 0 (by decide)
  have e1 : bd 1 1 0 = 0 := hS.vacuum 1 (by decide) rfl 1 (by decide) (by decide) 0 (by decide) 0 0
    (by unfold InFace; decide)
  have e2 : bd 0 0 0 - bd 0 1 0 = 0 := hS.reflect 0 (by decide) rfl 0 (by decide) (by decide) 1 (by decide) 0
    (by decide) 0 0 (by unfold InFace; decide)
  have e3 : phi 0 + 0 = ∑ o ∈ range 2, ∑ a ∈ range 1, 1 / 2 * psi o a 0 := hS.flux 0 (by decide)
  have h1 : dd 0 0 ((1 + 1 / 2 * phi 0) * 1) (V 0) = (psi 0 0 0, V 1) := v3 0 (by decide)
  have h2 : dd 0 0 ((1 + 1 / 2 * phi 0) * 1) (U 0) = (psi 1 0 0, U 1) := u3 0 (by decide)
  have v1' : V 0 = bd 0 0 0 := v1
  have u1' : U 0 = bd 1 1 0 := u1
  have u2' : bd 0 1 0 = U 1 := u2
  unfold dd at h1 h2
  obtain ⟨k1, k2⟩ := Prod.mk.inj h1
  obtain ⟨k3, k4⟩ := Prod.mk.inj h2
  simp only [sum_range_succ, sum_range_zero] at e3
  linarith

/-- A settled state of source iteration: one pass from flux `10/13` with nothing entering. -/
def tEnd : St ℚ ℚ := (slab half (1 / 2)).siPass { zeros with phi := fun _ => 10 / 13 }

theorem tEnd_sides : Sides (slab half (1 / 2)) tEnd.bdy := by
  refine sides_sweep (slab_sweeps half (1 / 2)) half_np true _ _ ⟨fun _ _ _ _ _ _ _ _ _ _ _ => rfl, ?_⟩
  intro side _ ps hb
  change half side = _ at hb
  unfold half at hb
  split at hb <;> cases hb

/-- Both solvers find `10/13`. -/
example : ∀ c < 1, (fun i => if i = 0 then 10 / 13 else 10 / 39 : Nat → ℚ) c = tEnd.phi c := by
  have hm := half_settled
  refine C124_solvers_agree (slab_sweeps half (1 / 2)) half_np rfl (1 / 1000) zeros zeros tEnd
    (fun i => if i = 0 then 10 / 13 else 10 / 39) hm ?_ (by unfold SolvesSystem; decide +kernel) tEnd_sides
    (by decide +kernel) ?_
  · intro x x' hx hx' i hi
    obtain rfl : i = 0 := by have : i < 1 := hi; omega
    rw [half_flux x (C124_solution (slab_sweeps half (1 / 2)) half_np rfl (1 / 1000) zeros zeros x hm hx),
      half_flux x' (C124_solution (slab_sweeps half (1 / 2)) half_np rfl (1 / 1000) zeros zeros x' hm hx')]
  · have k : ∀ side < 2, ∀ o < 2, ∀ a < 1, ((slab half (1 / 2)).siPass tEnd).bdy side o a = tEnd.bdy side o a := by
      decide +kernel
    exact fun side hs _ o ho _ a ha => k side hs o ho a ha

/-- With the boundary option the west face holds the true entering flux `12/13` in the end; without it the state
    holds `10/39`. -/
example : ((slab half (1 / 2)).finish true (1 / 1000) zeros fun i => if i = 0 then 10 / 13 else 10 / 39).2.bdy 0 0 0
      = 12 / 13 ∧
    ((slab half (1 / 2)).finish false (1 / 1000) zeros fun i => if i = 0 then 10 / 13 else 10 / 39).2.bdy 0 0 0
      = 10 / 39 := by
  decide +kernel

/-- Full statement about the boundary after a solve without the boundary option: the entering fluxes stored at
    reflecting sides are those of the solution. -/
def C124Claim : Prop := ∀ (sc : ℚ) (tol tol' : ℚ) (s s' t : St ℚ ℚ) (x : Nat → ℚ),
  Mismatch (slab half sc) ((slab half sc).rhsState tol s).bdy (fun _ => 0) →
  SolvesSystem (slab half sc) tol s s' x → ∀ bd psi, Solution (slab half sc) (fun _ => 1 / 2)
    (fun q o a b p => Solves1 1 (fun i => dd a i (q i)) o b p)
    (fun o a c => ((slab half sc).fixed c + (slab half sc).scat ((slab half sc).moments x) c) * (slab half sc).mtod o a)
    x (fun _ => 0) (fun _ => 0) bd psi →
  ((slab half sc).finish false tol' t x).2.bdy 0 0 0 = bd 0 0 0

/-- It fails: without scattering the stored flux is zero, the true one is two thirds. -/
theorem C124_claim_fails : ¬ C124Claim := by
  intro hc
  have hx : SolvesSystem (slab half 0) (1 / 1000) zeros zeros (fun i => if i = 0 then 5 / 9 else 0) := by
    unfold SolvesSystem; decide +kernel
  obtain ⟨bd, psi, hS, hb⟩ := C124_boundary_partial (slab_sweeps half 0) half_np rfl (1 / 1000) 1 zeros zeros zeros
    _ half_settled0 hx
  have h1 := hc 0 (1 / 1000) 1 zeros zeros zeros _ half_settled0 hx bd psi hS
  have h2 := hb 0 (by decide) rfl 0 (by decide) (by decide) 0 (by decide) 0 0 (by unfold InFace; decide)
  change ((slab half 0).finish false 1 zeros (fun i => if i = 0 then 5 / 9 else 0)).2.bdy 0 0 0 =
    bd 0 0 0 - ((slab half 0).rhsState (1 / 1000) zeros).bdy 0 0 0 at h2
  rw [h1] at h2
  have h3 : ((slab half 0).rhsState (1 / 1000) zeros).bdy 0 0 0 = 2 / 3 := by decide +kernel
  rw [h3] at h2
  linarith

/-- Full statement for periodic sides: what GMRES solves for has, with each side's entering flux that leaving the
    opposite side, the cell equations and the flux. -/
def C124PeriodicClaim : Prop := ∀ (sc tol : ℚ) (s s' : St ℚ ℚ) (x : Nat → ℚ),
  SolvesSystem (slab (fun _ => .periodic) sc) tol s s' x →
  ∃ (bd : Bd ℚ) (psi : Nat → Nat → Nat → ℚ),
    (∀ o < 2, Solves1 1 (fun i => dd 0 i (1 + sc * x i)) o (fun f => bd f o 0) (psi o 0)) ∧
    (∀ o < 2, bd (entry o 0) o 0 = bd (exit o 0) o 0) ∧
    x 0 = ∑ o ∈ range 2, 1 / 2 * psi o 0 0

/-- It fails: periodic sides count as vacuum, the flux found is a third of the true one. -/
theorem C124_periodic_fails : ¬ C124PeriodicClaim := by
  intro hc
  obtain ⟨bd, psi, h1, h2, h3⟩ := hc 0 (1 / 1000) zeros zeros (fun _ => 1 / 3) (by unfold SolvesSystem; decide +kernel)
  have one : ∀ o < 2, psi o 0 0 = 1 := by
    intro o ho
    obtain ⟨V, v1, v2, v3⟩ := h1 o ho
    have h4 := v3 0 (by decide)
    have hp : posn 1 o 0 0 = 0 := by unfold posn; split <;> rfl
    rw [hp] at h4
    have e := h2 o ho
    dsimp only at v1 v2
    rw [← v1, v2] at e
    unfold dd at h4
    obtain ⟨k1, k2⟩ := Prod.mk.inj h4
    rw [← k2] at e
    linarith
  rw [sum_range_succ, sum_range_succ, sum_range_zero, one 0 (by decide), one 1 (by decide)] at h3
  norm_num at h3

end cases

end Detran.WGReflect
