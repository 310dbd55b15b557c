import Verif.Props.Checker
import Mathlib.LinearAlgebra.FiniteDimensional.Basic

/-!
# When the linear system of a group has exactly one solution (C150)
-/

namespace Detran.WGReflect

open Detran.Sweep
open Detran.Boundary (Bd BC Loc Enters Mirror faceCells)
open Finset

/-! ## Specification -/

section spec
variable {F K : Type} [Field K]

/-- Whatever the right-hand side, the operator the Krylov solver is given (`WGTransportOperator::multiply`) takes exactly
    one vector of cell fluxes and reflected fluxes to it, whatever earlier sweeps have left behind. -/
def UniquelySolvable (P : Prob F K) : Prop :=
  ∀ (s : St F K) (y : Nat → K), ∃ x, (∀ i < P.N + P.bsize, (P.multiply s x).2 i = y i) ∧
    ∀ (s' : St F K) x', (∀ i < P.N + P.bsize, (P.multiply s' x').2 i = y i) → ∀ i < P.N + P.bsize, x' i = x i

/-- No fluxes at the sides without fluxes in the cells. -/
def NoneSilent (P : Prob F K) (Sol : (Nat → K) → Nat → Nat → (Nat → F) → (Nat → K) → Prop) : Prop :=
  ∀ pt, Silent P Sol pt → ∀ side < 2 * P.dim, ∀ o < 2 ^ P.dim, ∀ a < P.na, ∀ i j, InFace P side i j →
    P.get (pt side o a) i j = 0

end spec

section main
variable {F K : Type} [Field K] [LinearOrder K] [IsStrictOrderedRing K]
variable {P : Prob F K} {w V sig ss : Nat → K} {m r : K} {fw : Nat → Nat → Nat → Nat → K}
  {Sol : (Nat → K) → Nat → Nat → (Nat → F) → (Nat → K) → Prop}

/-- The operator takes a vector to zero exactly if it has no flux in the cells, and at the reflecting sides fluxes that go
    with none in the cells. -/
theorem C150_kernel (h : Sweeps P w Sol) (hS : Subcritical P w V sig ss m r) (D : Dissipates P Sol V sig fw) (s : St F K)
    (x : Nat → K) : (∀ i < P.N + P.bsize, (P.multiply s x).2 i = 0) ↔
      (∀ c < P.N, x c = 0) ∧ ∃ pt, Silent P Sol pt ∧ ∀ side < 2 * P.dim, P.bc side = .reflect → ∀ o < 2 ^ P.dim,
        Enters side o → ∀ a < P.na, ∀ i j, InFace P side i j →
          x (P.slot ⟨side, o, a, i, j⟩) = P.get (pt side o a) i j := by
  have hp := hS.np
  obtain ⟨s1, ⟨s0, e1⟩, m1, m2, m3⟩ := multiply_spec h hp s x
  have src : ∀ o < 2 ^ P.dim, ∀ a < P.na, ∀ c < P.N,
      P.source (fun _ => 0) (P.scat (P.moments x)) o a c = ss c * x c * m := by
    intro o ho a ha c hc
    rw [source_eq hS.disc]
    dsimp only
    rw [hS.scat _ c hc, hS.mtod o ho a ha]
    unfold Prob.moments
    rw [if_pos hc, zero_add]
  constructor
  · intro hz
    obtain ⟨psi, c1, f1⟩ := h.solves false (P.source (fun _ => 0) (P.scat (P.moments x))) s0
    rw [← e1] at c1 f1
    have hx : ∀ c < P.N, x c = s1.phi c := fun c hc => sub_eq_zero.1 ((m1 c hc).symm.trans (hz c (by omega)))
    have hin : ∀ side < 2 * P.dim, P.bc side ≠ .reflect → ∀ o < 2 ^ P.dim, Enters side o → ∀ a < P.na, ∀ i j,
        InFace P side i j → P.get (s1.bdy side o a) i j = 0 := fun side hs hb o ho he a ha i j hi => by
      rw [m2 side hs o ho he a ha i j hi, if_neg (fun h' => hb ((refl_iff side).1 h'))]
    have hmir : ∀ side < 2 * P.dim, P.bc side = .reflect → ∀ o < 2 ^ P.dim, Enters side o → ∀ o', Mirror P.dim side o o' →
        ∀ a < P.na, ∀ i j, InFace P side i j → P.get (s1.bdy side o a) i j = P.get (s1.bdy side o' a) i j := by
      intro side hs hb o ho he o' hm a ha i j hi
      have hl := (mem_locs h side o a i j).2 ⟨hs, hb, ho, he, ha, hi⟩
      rw [m2 side hs o ho he a ha i j hi, if_pos ((refl_iff side).2 hb)]
      exact sub_eq_zero.1 ((m3 side hs hb o ho he o' hm a ha i j hi).symm.trans (hz _ (slot_spec h _ hl).2.1))
    have cells : ∀ o < 2 ^ P.dim, ∀ a < P.na, Sol (fun c => ss c * x c * m) o a (fun f => s1.bdy f o a) (psi o a) :=
      fun o ho a ha => h.src_congr ho (fun c hc => (src o ho a ha c hc).symm) (c1 o ho a ha)
    obtain ⟨z0, _, z, _⟩ := homogeneous hS D h x s1.bdy psi cells (fun c hc => (hx c hc).trans (f1 c hc)) hin
      (fun side hs hb o ho he a ha i j hi => hmir side hs hb o ho he _ (mir_facts P.dim h.d1 h.d3 side hs o ho).2.1 a ha i j hi)
    refine ⟨z0, s1.bdy, ⟨fun o ho a ha => ⟨psi o a, z o ho a ha, h.src_congr ho (fun c hc => ?_) (cells o ho a ha)⟩, hin,
      fun side hs hb o ho he o' hm a ha i j hi => (hmir side hs hb o ho he o' hm a ha i j hi).symm⟩,
      fun side hs hb o ho he a ha i j hi => ?_⟩
    · rw [z0 c hc]; ring
    · rw [m2 side hs o ho he a ha i j hi, if_pos ((refl_iff side).2 hb)]
  · rintro ⟨z0, pt, hpt, hb⟩
    choose! p p0 pc using hpt.cells
    obtain ⟨u1, u2⟩ := sweep_unique h (P.source (fun _ => 0) (P.scat (P.moments x))) s0 pt p
      (fun o ho a ha => h.src_congr ho (fun c hc => by rw [src o ho a ha c hc, z0 c hc]; ring) (pc o ho a ha))
      (by
        intro side hs o ho he a ha i j hi
        rw [← e1, m2 side hs o ho he a ha i j hi]
        by_cases hr : P.bc side = .reflect
        · rw [if_pos ((refl_iff side).2 hr), hb side hs hr o ho he a ha i j hi]
        · rw [if_neg (fun h' => hr ((refl_iff side).1 h')), hpt.none side hs hr o ho he a ha i j hi])
    rw [← e1] at u1 u2
    intro i hi
    by_cases hc : i < P.N
    · rw [m1 i hc, u2 i hc, z0 i hc, zero_sub, neg_eq_zero]
      exact sum_eq_zero fun o ho => sum_eq_zero fun a ha => by
        rw [p0 o (mem_range.1 ho) a (mem_range.1 ha) i hc, mul_zero]
    · obtain ⟨l, hl, rfl⟩ := slot_cover h i (by omega) hi
      obtain ⟨side, o, a, i', j⟩ := l
      obtain ⟨hs, hr, ho, he, ha, hf⟩ := (mem_locs h side o a i' j).1 hl
      obtain ⟨o', hmm, hne⟩ := Boundary.C30_mirror_exists P.dim h.d1 h.d3 side hs o ho he
      rw [m3 side hs hr o ho he o' hmm a ha i' j hf, u1 side hs o' hmm.1 hne a ha i' j hf, hb side hs hr o ho he a ha i' j hf,
        hpt.mirror side hs hr o ho he o' hmm a ha i' j hf, sub_self]

/-- A group that scatters less than it collides, and has no fluxes at the sides without fluxes in the cells, gives the
    solver a system with exactly one solution. -/
theorem C150_solvable (h : Sweeps P w Sol) (hS : Subcritical P w V sig ss m r) (D : Dissipates P Sol V sig fw)
    (hn : NoneSilent P Sol) : UniquelySolvable P := by
  have hp := hS.np
  have ker : ∀ s x, (∀ i < P.N + P.bsize, (P.multiply s x).2 i = 0) → ∀ i < P.N + P.bsize, x i = 0 := by
    intro s x hx i hi
    obtain ⟨z0, pt, hpt, hb⟩ := (C150_kernel h hS D s x).1 hx
    by_cases hc : i < P.N
    · exact z0 i hc
    · obtain ⟨⟨side, o, a, i', j⟩, hl, rfl⟩ := slot_cover h i (by omega) hi
      obtain ⟨hs, hr, ho, he, ha, hf⟩ := (mem_locs h side o a i' j).1 hl
      rw [hb side hs hr o ho he a ha i' j hf, hn pt hpt side hs o ho a ha i' j hf]
  have lin : ∀ (α β : K) (x y z : Nat → K), (∀ i < P.N + P.bsize, z i = α * x i + β * y i) → ∀ s1 s2 s3,
      ∀ i < P.N + P.bsize, (P.multiply s3 z).2 i = α * (P.multiply s1 x).2 i + β * (P.multiply s2 y).2 i := by
    intro α β x y z hz s1 s2 s3
    refine C124_operator_linear h hp hS.disc α β x y z hz (fun c hc => ?_) s1 s2 s3
    rw [hS.scat _ c hc, hS.scat _ c hc, hS.scat _ c hc]
    unfold Prob.moments
    rw [if_pos hc, if_pos hc, if_pos hc, hz c (by omega)]
    ring
  intro s y
  let n := P.N + P.bsize
  let ext : (Fin n → K) → Nat → K := fun v i => if hi : i < n then v ⟨i, hi⟩ else 0
  have hext : ∀ v i (hi : i < n), ext v i = v ⟨i, hi⟩ := fun v i hi => dif_pos hi
  let L : (Fin n → K) →ₗ[K] (Fin n → K) := {
    toFun := fun v i => (P.multiply s (ext v)).2 i
    map_add' := fun v u => by
      funext i
      have := lin 1 1 (ext v) (ext u) (ext (v + u)) (fun i hi => by
        rw [hext _ i hi, hext _ i hi, hext _ i hi, Pi.add_apply]; ring) s s s i i.2
      rw [one_mul, one_mul] at this
      exact this
    map_smul' := fun t v => by
      funext i
      have := lin t 0 (ext v) (ext v) (ext (t • v)) (fun i hi => by
        rw [hext _ i hi, hext _ i hi, Pi.smul_apply, smul_eq_mul]; ring) s s s i i.2
      rw [zero_mul, add_zero] at this
      exact this }
  have inj : Function.Injective L := by
    refine (injective_iff_map_eq_zero L).2 fun v hv => ?_
    funext i
    have := ker s (ext v) (fun i hi => congrFun hv ⟨i, hi⟩) i i.2
    rwa [hext _ _ i.2] at this
  obtain ⟨v, hv⟩ := LinearMap.injective_iff_surjective.1 inj (fun i => y i)
  refine ⟨ext v, fun i hi => congrFun hv ⟨i, hi⟩, fun s' x' hx' i hi => ?_⟩
  have hd := ker s (fun i => x' i - ext v i) (fun i hi => by
    have e : (P.multiply s (ext v)).2 i = y i := congrFun hv ⟨i, hi⟩
    rw [lin 1 (-1) x' (ext v) _ (fun i _ => by ring) s' s s i hi, hx' i hi, e]
    ring) i hi
  exact sub_eq_zero.1 hd

/-- With fluxes at a reflecting side that go with none in the cells, the system has several solutions or none. -/
theorem C150_singular (h : Sweeps P w Sol) (hS : Subcritical P w V sig ss m r) (D : Dissipates P Sol V sig fw) {pt : Bd F}
    (hpt : Silent P Sol pt) {side o a i j : Nat} (hs : side < 2 * P.dim) (hb : P.bc side = .reflect) (ho : o < 2 ^ P.dim)
    (he : Enters side o) (ha : a < P.na) (hi : InFace P side i j) (hne : P.get (pt side o a) i j ≠ 0) :
    ¬ UniquelySolvable P := by
  intro hu
  let x : Nat → K := fun i => if i < P.N then 0 else
    match P.locs[i - P.N]? with
    | some l => P.flat pt l
    | none => 0
  have hxl : ∀ l ∈ P.locs, x (P.slot l) = P.flat pt l := by
    intro l hl
    have : ¬ P.slot l < P.N := by have := (slot_spec h l hl).1; omega
    simp only [x, if_neg this]
    unfold Prob.slot
    rw [Nat.add_sub_cancel_left, List.getElem?_idxOf hl]
  let s : St F K := ⟨fun _ _ _ => P.face fun _ _ => 0, fun _ => 0, fun _ _ _ => 0⟩
  obtain ⟨x0, _, hx0⟩ := hu s fun _ => 0
  have h1 := hx0 s x ((C150_kernel h hS D s x).2 ⟨fun c hc => if_pos hc, pt, hpt, fun side hs hb o ho he a ha i j hi =>
    hxl _ ((mem_locs h side o a i j).2 ⟨hs, hb, ho, he, ha, hi⟩)⟩)
  obtain ⟨psi, c1, _⟩ := h.solves false (fun _ _ _ => 0) s
  have h2 := hx0 s (fun _ => 0) ((C150_kernel h hS D s _).2 ⟨fun _ _ => rfl, fun _ _ _ => P.face fun _ _ => 0,
    ⟨fun o ho a ha => ⟨fun _ => 0, fun _ _ => rfl, h.lin 0 0 _ _ _ o a _ _ _ _ _ _ ho (c1 o ho a ha) (c1 o ho a ha)
      (fun c _ => by ring) (fun c => by ring) (fun side hs i j hi => by rw [h.face side hs _ i j hi]; ring)⟩,
      fun side hs _ o _ _ a _ i j hi => h.face side hs _ i j hi, fun side hs _ o _ _ o' _ a _ i j hi => rfl⟩,
    fun side hs _ o _ _ a _ i j hi => (h.face side hs (fun _ _ => 0) i j hi).symm⟩)
  have hl := (mem_locs h side o a i j).2 ⟨hs, hb, ho, he, ha, hi⟩
  have hlt := (slot_spec h _ hl).2.1
  exact hne ((hxl _ hl).symm.trans ((h1 _ hlt).trans (h2 _ hlt).symm))

/-! ### No silent patterns where the sides are determined -/

/-- Nothing is given at the sides that do not reflect. -/
def shut (bc : Nat → BC F) (side : Nat) : BC F :=
  match bc side with
  | .reflect => .reflect
  | _ => .vacuum

omit [Field K] [LinearOrder K] [IsStrictOrderedRing K] in
theorem shut_reflect (bc : Nat → BC F) (side : Nat) : shut bc side = .reflect ↔ bc side = .reflect := by
  unfold shut
  split
  · next h => simp [h]
  · next h => simp only [reduceCtorEq, false_iff]; exact h

theorem shut_or (bc : Nat → BC F) (side : Nat) : shut bc side = .reflect ∨ shut bc side = .vacuum := by
  unfold shut
  split <;> simp

/-- A silent pattern solves the equations of the group without sources; so does nothing at all. -/
theorem solved_silent (h : Sweeps P w Sol) (hf : P.fixed = fun _ => 0) (hsc : P.scat (P.moments fun _ => 0) = fun _ => 0)
    (hb : ∀ side, P.bc side = .reflect ∨ P.bc side = .vacuum) {pt : Bd F} (hpt : Silent P Sol pt) :
    ∃ psi, Solved P w Sol (fun _ => 0) pt psi := by
  choose! p p0 pc using hpt.cells
  refine ⟨p, fun o ho a ha => h.src_congr ho (fun c _ => ?_) (pc o ho a ha), fun c hc => ?_, fun side hs hv o ho he a ha i j hi =>
    hpt.none side hs (by rw [hv]; simp) o ho he a ha i j hi, fun side hs ps hv => ?_,
    fun side hs hr o ho he o' hm a ha i j hi => ?_⟩
  · rw [hf, hsc]; ring
  · rw [add_zero]
    exact (sum_eq_zero fun o ho => sum_eq_zero fun a ha => by
      rw [p0 o (mem_range.1 ho) a (mem_range.1 ha) c hc, mul_zero]).symm
  · rcases hb side with e | e <;> rw [e] at hv <;> cases hv
  · rw [hpt.mirror side hs hr o ho he o' hm a ha i j hi, sub_self]

theorem solved_nothing (h : Sweeps P w Sol) : Silent P Sol (fun _ _ _ => P.face fun _ _ => 0) := by
  obtain ⟨psi, c1, _⟩ := h.solves false (fun _ _ _ => 0) ⟨fun _ _ _ => P.face fun _ _ => 0, fun _ => 0, fun _ _ _ => 0⟩
  refine ⟨fun o ho a ha => ⟨fun _ => 0, fun _ _ => rfl, h.lin 0 0 _ _ _ o a _ _ _ _ _ _ ho (c1 o ho a ha) (c1 o ho a ha)
    (fun c _ => by ring) (fun c => by ring) (fun side hs i j hi => by rw [h.face side hs _ i j hi]; ring)⟩,
    fun side hs _ o _ _ a _ i j hi => h.face side hs _ i j hi, fun side hs _ o _ _ o' _ a _ i j hi => rfl⟩

/-! ## Slabs -/

theorem slab_none (w ss fixed : Nat → K) (m : K) (nx na : Nat) (up : Bool) (bc : Nat → BC K) (order : List Nat)
    (hord : order.Perm (List.range 2)) (sch : Nat → Nat → K → K → K × K) (lin : ∀ a i, LinEq1 (sch a i))
    (det : ∀ {phi phi' : Nat → K} {bd bd' : Bd K} {psi psi' : Nat → Nat → Nat → K},
      Solved (prob1 sch w nx na up (shut bc) order (fun f c => ss c * f c) (fun _ => 0) (fun _ _ => m) []) w
        (fun q o a b p => Solves1 nx (fun i => sch a i (q i)) o b p) phi bd psi →
      Solved (prob1 sch w nx na up (shut bc) order (fun f c => ss c * f c) (fun _ => 0) (fun _ _ => m) []) w
        (fun q o a b p => Solves1 nx (fun i => sch a i (q i)) o b p) phi' bd' psi' →
      ∀ side < 2, ∀ o < 2, ∀ a < na, bd side o a = bd' side o a) :
    NoneSilent (prob1 sch w nx na up bc order (fun f c => ss c * f c) fixed (fun _ _ => m) [])
      (fun q o a b p => Solves1 nx (fun i => sch a i (q i)) o b p) := by
  intro pt hpt
  have hsw := sweeps1 sch lin w nx na up (shut bc) order hord (fun f c => ss c * f c) (fun _ => 0) (fun _ _ => m) []
  have hsc : (fun c => ss c * (if c < nx then (0 : K) else 0)) = fun _ => 0 := by funext c; simp
  obtain ⟨psi, k1⟩ := solved_silent hsw rfl hsc (shut_or bc) (pt := pt)
    ⟨hpt.cells, fun side h1 h2 => hpt.none side h1 (mt (shut_reflect bc side).2 h2),
      fun side h1 h2 => hpt.mirror side h1 ((shut_reflect bc side).1 h2)⟩
  obtain ⟨psi', k2⟩ := solved_silent hsw rfl hsc (shut_or bc) (solved_nothing hsw)
  exact fun side hs o ho a ha i j hi => det k1 k2 side hs o ho a ha

/-- In slabs the system always has exactly one solution. -/
theorem C150_1D (mu w dx sig ss fixed : Nat → K) (m r : K) (nx na : Nat) (up : Bool)
    (bc : Nat → BC K) (order : List Nat) (hord : order.Perm (List.range 2)) (sch : Nat → Nat → K → K → K × K)
    (hsch : ∀ a i, sch a i = dd1 (mu a) (dx i) (sig i) ∨ sch a i = sd1 (mu a) (dx i) (sig i))
    (hmu : ∀ a < na, 0 < mu a) (hw : ∀ a < na, 0 < w a) (hm : m * ∑ _o ∈ range 2, ∑ a ∈ range na, w a = 1)
    (hdx : ∀ i < nx, 0 < dx i) (hsig : ∀ i < nx, 0 < sig i) (hss : ∀ i < nx, |ss i| ≤ r * sig i) (h0 : 0 ≤ r)
    (h1 : r < 1) (hp : ∀ s < 2, bc s ≠ .periodic) (hn : 0 < nx) :
    UniquelySolvable (prob1 sch w nx na up bc order (fun f c => ss c * f c) fixed (fun _ _ => m) []) := by
  have lin : ∀ a i, LinEq1 (sch a i) := fun a i => by
    obtain ⟨l1, l2, _⟩ := C27_schemes_linear (fun x : K => x) (mu a) 0 0 (dx i) 0 0 (sig i)
    rcases hsch a i with e | e <;> rw [e] <;> assumption
  have np : ∀ s < 2, shut bc s ≠ .periodic := fun s _ => by rcases shut_or bc s with e | e <;> rw [e] <;> simp
  refine C150_solvable (sweeps1 sch lin w nx na up bc order hord (fun f c => ss c * f c) fixed (fun _ _ => m) [])
    (V := dx) (sig := sig) (ss := ss) (m := m) (r := r)
    ⟨hw, fun _ _ _ _ => rfl, hm, hdx, hsig, fun _ _ _ => rfl, hss, h0, h1, rfl, hp⟩
    (dissipates1 sch w nx na up bc order _ _ _ _ dx sig (fun a => mu a / 2) (fun a ha => half_pos (hmu a ha))
      fun a ha i hi => ?_)
    (slab_none w ss fixed m nx na up bc order hord sch lin fun k1 k2 =>
      C149_1D mu w dx sig ss _ m r nx na up (shut bc) order hord sch hsch hmu hw hm hdx hsig hss h0 h1 np hn k1 k2)
  rcases hsch a i with e | e
  · rw [e]; exact cell_dd1 _ _ _ (hmu a ha) (hdx i hi) (hsig i hi)
  · rw [e]; exact cell_sd1 _ _ _ (hmu a ha) (hdx i hi) (hsig i hi)

/-- The same with step characteristics. -/
theorem C150_1D_sc (mu w dx sig ss fixed : Nat → ℝ) (m r : ℝ) (nx na : Nat) (up : Bool)
    (bc : Nat → BC ℝ) (order : List Nat) (hord : order.Perm (List.range 2))
    (hmu : ∀ a < na, 0 < mu a) (hw : ∀ a < na, 0 < w a) (hm : m * ∑ _o ∈ range 2, ∑ a ∈ range na, w a = 1)
    (hdx : ∀ i < nx, 0 < dx i) (hsig : ∀ i < nx, 0 < sig i) (hss : ∀ i < nx, |ss i| ≤ r * sig i) (h0 : 0 ≤ r)
    (h1 : r < 1) (hp : ∀ s < 2, bc s ≠ .periodic) (hn : 0 < nx) :
    UniquelySolvable (prob1 (fun a i => sc1 Real.exp (mu a) (dx i) (sig i)) w nx na up bc order (fun f c => ss c * f c) fixed
      (fun _ _ => m) []) := by
  have lin : ∀ a i, LinEq1 (sc1 Real.exp (mu a) (dx i) (sig i)) := fun a i =>
    (C27_schemes_linear Real.exp (mu a) 0 0 (dx i) 0 0 (sig i)).2.2.1
  have np : ∀ s < 2, shut bc s ≠ .periodic := fun s _ => by rcases shut_or bc s with e | e <;> rw [e] <;> simp
  refine C150_solvable (sweeps1 (fun a i => sc1 Real.exp (mu a) (dx i) (sig i)) lin w nx na up bc order hord
      (fun f c => ss c * f c) fixed (fun _ _ => m) [])
    (V := dx) (sig := sig) (ss := ss) (m := m) (r := r)
    ⟨hw, fun _ _ _ _ => rfl, hm, hdx, hsig, fun _ _ _ => rfl, hss, h0, h1, rfl, hp⟩
    (dissipates1 _ w nx na up bc order _ _ _ _ dx sig (fun a => mu a / 2) (fun a ha => half_pos (hmu a ha))
      fun a ha i hi => ?_)
    (slab_none w ss fixed m nx na up bc order hord _ lin fun k1 k2 =>
      C149_1D_sc mu w dx sig ss _ m r nx na up (shut bc) order hord hmu hw hm hdx hsig hss h0 h1 np hn k1 k2)
  have c1 := hmu a ha
  have c2 := hdx i hi
  have c3 := hsig i hi
  obtain ⟨k1, k2⟩ := exp_ok (sig i * dx i / mu a) (by positivity)
  exact cell_sc1 Real.exp _ _ _ c1 c2 c3 k1 k2

/-! ## Rectangles -/

theorem Plane.shut {mu eta w dx dy sig ss : Nat → K} {m r : K} {nx ny na : Nat} {bc : Nat → BC (Nat → K)}
    (hP : Plane mu eta w dx dy sig ss m r nx ny na bc) : Plane mu eta w dx dy sig ss m r nx ny na (shut bc) where
  hmu := hP.hmu
  heta := hP.heta
  weight := hP.weight
  norm := hP.norm
  hdx := hP.hdx
  hdy := hP.hdy
  hsig := hP.hsig
  scat := hP.scat
  nonneg := hP.nonneg
  less := hP.less
  np := fun s _ => by rcases shut_or bc s with e | e <;> rw [e] <;> simp
  hx := hP.hx
  hy := hP.hy

/-- What a silent pattern is on a rectangle: the difference of two solutions. -/
theorem plane_silent (w ss fixed : Nat → K) (m : K) (nx ny na : Nat) (up : Bool) (bc : Nat → BC (Nat → K)) (order : List Nat)
    (hord : order.Perm (List.range 4)) (sch : Nat → Nat → Nat → K → K × K → K × (K × K)) (lin : ∀ a i j, LinEq2 (sch a i j))
    {pt : Bd (Nat → K)} (hpt : Silent (planeProb sch w ss fixed m nx ny na up bc order) (planeSol sch nx ny) pt) :
    (∃ psi, Solved (planeProb sch w ss (fun _ => 0) m nx ny na up (shut bc) order) w (planeSol sch nx ny) (fun _ => 0) pt psi) ∧
    ∃ psi, Solved (planeProb sch w ss (fun _ => 0) m nx ny na up (shut bc) order) w (planeSol sch nx ny) (fun _ => 0)
      (fun _ _ _ _ => 0) psi := by
  have hsw := sweeps2 sch lin w nx ny na up (shut bc) order hord (fun f c => ss c * f c) (fun _ => 0) (fun _ _ => m) []
  have hsc : (fun c => ss c * (if c < nx * ny then (0 : K) else 0)) = fun _ => 0 := by funext c; simp
  exact ⟨solved_silent hsw rfl hsc (shut_or bc) (pt := pt)
    ⟨hpt.cells, fun side h1 h2 => hpt.none side h1 (mt (shut_reflect bc side).2 h2),
      fun side h1 h2 => hpt.mirror side h1 ((shut_reflect bc side).1 h2)⟩,
    solved_silent hsw rfl hsc (shut_or bc) (solved_nothing hsw)⟩

theorem plane_solvable {mu eta w dx dy sig ss : Nat → K} {m r : K} {nx ny na : Nat} {bc : Nat → BC (Nat → K)}
    (hP : Plane mu eta w dx dy sig ss m r nx ny na bc) (fixed : Nat → K) (up : Bool) (order : List Nat)
    (hord : order.Perm (List.range 4)) (sch : Nat → Nat → Nat → K → K × K → K × (K × K))
    (lin : ∀ a i j, LinEq2 (sch a i j))
    (cell : ∀ a i j, 0 < mu a → 0 < eta a → 0 < dx i → 0 < dy j → 0 < sig (i + j * nx) →
      Cell2 (mu a / 2 * dy j) (eta a / 2 * dx i) (dx i * dy j) (sig (i + j * nx)) (sch a i j))
    (det : ∀ {phi phi' : Nat → K} {bd bd' : Bd (Nat → K)} {psi psi' : Nat → Nat → Nat → K},
      Solved (planeProb sch w ss (fun _ => 0) m nx ny na up (WGReflect.shut bc) order) w (planeSol sch nx ny) phi bd psi →
      Solved (planeProb sch w ss (fun _ => 0) m nx ny na up (WGReflect.shut bc) order) w (planeSol sch nx ny) phi' bd' psi' →
      ∀ side < 4, ∀ o < 4, ∀ a < na, ∀ k < (if side < 2 then ny else nx), bd side o a k = bd' side o a k) :
    UniquelySolvable (planeProb sch w ss fixed m nx ny na up bc order) := by
  have vol : ∀ i j, i < nx → dx ((i + j * nx) % nx) * dy ((i + j * nx) / nx) = dx i * dy j := fun i j hi => by
    rw [Nat.add_mul_mod_self_right, Nat.mod_eq_of_lt hi, Nat.add_mul_div_right _ _ (by omega : 0 < nx),
      Nat.div_eq_of_lt hi, Nat.zero_add]
  have hsw := sweeps2 sch lin w nx ny na up bc order hord (fun f c => ss c * f c) fixed (fun _ _ => m) []
  refine C150_solvable hsw (V := fun c => dx (c % nx) * dy (c / nx)) (sig := sig) (ss := ss) (m := m) (r := r)
    ⟨hP.weight, fun _ _ _ _ => rfl, hP.norm, fun c hc => mul_pos (hP.hdx _ (Nat.mod_lt _ hP.hx))
      (hP.hdy _ (Nat.div_lt_of_lt_mul hc)), hP.hsig, fun _ _ _ => rfl, hP.scat, hP.nonneg, hP.less, rfl, hP.np⟩
    (dissipates2 sch w nx ny na up bc order _ _ _ _ _ sig (fun a j => mu a / 2 * dy j) (fun a i => eta a / 2 * dx i)
      (fun a ha j hj => mul_pos (half_pos (hP.hmu a ha)) (hP.hdy j hj))
      (fun a ha i hi => mul_pos (half_pos (hP.heta a ha)) (hP.hdx i hi)) fun a ha i hi j hj => by
        rw [vol i j hi]
        exact cell a i j (hP.hmu a ha) (hP.heta a ha) (hP.hdx i hi) (hP.hdy j hj) (hP.hsig _ (cell2_lt hi hj)))
    fun pt hpt side hs o ho a ha i j hi => ?_
  obtain ⟨⟨psi, k1⟩, psi', k2⟩ := plane_silent w ss fixed m nx ny na up bc order hord sch lin hpt
  exact det k1 k2 side hs o ho a ha i ((face2 nx ny side i j hs).1 hi).1

/-- Step differencing on rectangles gives systems with exactly one solution. -/
theorem C150_2D_step {mu eta w dx dy sig ss : Nat → K} {m r : K} {nx ny na : Nat} {bc : Nat → BC (Nat → K)}
    (hP : Plane mu eta w dx dy sig ss m r nx ny na bc) (fixed : Nat → K) (up : Bool) (order : List Nat)
    (hord : order.Perm (List.range 4)) :
    UniquelySolvable (planeProb (fun a i j => sd2 (mu a) (eta a) (dx i) (dy j) (sig (i + j * nx))) w ss fixed m nx ny na up bc
      order) :=
  plane_solvable hP fixed up order hord _
    (fun a i j => (C27_schemes_linear (fun x : K => x) (mu a) (eta a) 0 (dx i) (dy j) 0 _).2.2.2.2.1)
    (fun a i j c1 c2 c3 c4 c5 => cell_sd2 _ _ _ _ _ c1 c2 c3 c4 c5)
    (fun k1 k2 => C149_2D_step hP.shut _ up order hord _ (fun _ _ _ => rfl) k1 k2)

/-- So do step characteristics. -/
theorem C150_2D_sc {mu eta w dx dy sig ss : Nat → ℝ} {m r : ℝ} {nx ny na : Nat} {bc : Nat → BC (Nat → ℝ)}
    (hP : Plane mu eta w dx dy sig ss m r nx ny na bc) (fixed : Nat → ℝ) (up : Bool) (order : List Nat)
    (hord : order.Perm (List.range 4)) :
    UniquelySolvable (planeProb (fun a i j => sc2 Real.exp (mu a) (eta a) (dx i) (dy j) (sig (i + j * nx))) w ss fixed m nx ny na
      up bc order) :=
  plane_solvable hP fixed up order hord _
    (fun a i j => (C27_schemes_linear Real.exp (mu a) (eta a) 0 (dx i) (dy j) 0 _).2.2.2.2.2.1)
    (fun a i j c1 c2 c3 c4 c5 => cell_sc2 _ _ _ _ _ c1 c2 c3 c4 c5)
    (fun k1 k2 => C149_2D_sc hP.shut _ up order hord _ (fun _ _ _ => rfl) k1 k2)

/-- Diamond differencing does if some side does not reflect. -/
theorem C150_2D_partial {mu eta w dx dy sig ss : Nat → K} {m r : K} {nx ny na : Nat} {bc : Nat → BC (Nat → K)}
    (hP : Plane mu eta w dx dy sig ss m r nx ny na bc) (hopen : ∃ side < 4, bc side ≠ .reflect) (fixed : Nat → K) (up : Bool)
    (order : List Nat) (hord : order.Perm (List.range 4)) :
    UniquelySolvable (planeProb (fun a i j => dd2 (mu a) (eta a) (dx i) (dy j) (sig (i + j * nx))) w ss fixed m nx ny na up bc
      order) := by
  obtain ⟨t, ht, hb⟩ := hopen
  exact plane_solvable hP fixed up order hord _
    (fun a i j => (C27_schemes_linear (fun x : K => x) (mu a) (eta a) 0 (dx i) (dy j) 0 _).2.2.2.1)
    (fun a i j c1 c2 c3 c4 c5 => cell_dd2 _ _ _ _ _ c1 c2 c3 c4 c5)
    (fun k1 k2 => C149_2D_partial hP.shut ⟨t, ht, mt (shut_reflect bc t).1 hb⟩ _ up order hord _ (fun _ _ _ => rfl) k1 k2)

/-- Between four mirrors the vectors that diamond differencing takes to zero are the alternating patterns, one for every
    angle, and nothing else. -/
theorem C150_mirrors {mu eta w dx dy sig ss : Nat → K} {m r : K} {nx ny na : Nat} {bc : Nat → BC (Nat → K)}
    (hP : Plane mu eta w dx dy sig ss m r nx ny na bc) (hr : ∀ side < 4, bc side = .reflect) (fixed : Nat → K) (up : Bool)
    (order : List Nat) (hord : order.Perm (List.range 4)) (s : St (Nat → K) K) (x : Nat → K) :
    let P := planeProb (fun a i j => dd2 (mu a) (eta a) (dx i) (dy j) (sig (i + j * nx))) w ss fixed m nx ny na up bc order
    (∀ i < P.N + P.bsize, (P.multiply s x).2 i = 0) ↔ (∀ c < nx * ny, x c = 0) ∧ ∃ A : Nat → K, ∀ side < 4, ∀ o < 4,
      Enters side o → ∀ a < na, ∀ k < (if side < 2 then ny else nx),
        x (P.slot ⟨side, o, a, k, 0⟩) = A a * alternating (mu a) (eta a) dx dy nx ny side o k := by
  intro P
  have vol : ∀ i j, i < nx → dx ((i + j * nx) % nx) * dy ((i + j * nx) / nx) = dx i * dy j := fun i j hi => by
    rw [Nat.add_mul_mod_self_right, Nat.mod_eq_of_lt hi, Nat.add_mul_div_right _ _ (by omega : 0 < nx),
      Nat.div_eq_of_lt hi, Nat.zero_add]
  have lin : ∀ a i j, LinEq2 (dd2 (mu a) (eta a) (dx i) (dy j) (sig (i + j * nx))) := fun a i j =>
    (C27_schemes_linear (fun x : K => x) (mu a) (eta a) 0 (dx i) (dy j) 0 _).2.2.2.1
  have hsw := sweeps2 _ lin w nx ny na up bc order hord (fun f c => ss c * f c) fixed (fun _ _ => m) []
  have ker := C150_kernel hsw (V := fun c => dx (c % nx) * dy (c / nx)) (sig := sig) (ss := ss) (m := m) (r := r)
    ⟨hP.weight, fun _ _ _ _ => rfl, hP.norm, fun c hc => mul_pos (hP.hdx _ (Nat.mod_lt _ hP.hx))
      (hP.hdy _ (Nat.div_lt_of_lt_mul hc)), hP.hsig, fun _ _ _ => rfl, hP.scat, hP.nonneg, hP.less, rfl, hP.np⟩
    (dissipates2 _ w nx ny na up bc order _ _ _ _ _ sig (fun a j => mu a / 2 * dy j) (fun a i => eta a / 2 * dx i)
      (fun a ha j hj => mul_pos (half_pos (hP.hmu a ha)) (hP.hdy j hj))
      (fun a ha i hi => mul_pos (half_pos (hP.heta a ha)) (hP.hdx i hi)) fun a ha i hi j hj => by
        rw [vol i j hi]
        exact cell_dd2 _ _ _ _ _ (hP.hmu a ha) (hP.heta a ha) (hP.hdx i hi) (hP.hdy j hj) (hP.hsig _ (cell2_lt hi hj))) s x
  refine ker.trans (and_congr Iff.rfl ⟨?_, ?_⟩)
  · rintro ⟨pt, hpt, hx⟩
    obtain ⟨⟨psi, k1⟩, psi', k2⟩ := plane_silent w ss fixed m nx ny na up bc order hord _ lin hpt
    have k := C149_mirrors hP.shut (fun side hs => (shut_reflect bc side).2 (hr side hs)) _ up order hord _ (fun _ _ _ => rfl) k1 k2
    choose! A hA using k
    refine ⟨A, fun side hs o ho he a ha k hk => ?_⟩
    have e := hA a ha side hs o ho k hk
    rw [zero_add] at e
    exact (hx side hs (hr side hs) o ho he a ha k 0 ((face2 nx ny side k 0 hs).2 ⟨hk, rfl⟩)).trans e
  · rintro ⟨A, hA⟩
    refine ⟨_, C149_silent mu eta w dx dy sig fixed (fun f c => ss c * f c) (fun _ _ => m) [] nx ny na up bc order hord hr A,
      fun side hs hb o ho he a ha i j hi => ?_⟩
    obtain ⟨hk, rfl⟩ := (face2 nx ny side i j hs).1 hi
    exact hA side hs o ho he a ha i hk

/-- So with at least one angle the system has no unique solution there. -/
theorem C150_four_mirrors {mu eta w dx dy sig ss : Nat → K} {m r : K} {nx ny na : Nat} {bc : Nat → BC (Nat → K)}
    (hP : Plane mu eta w dx dy sig ss m r nx ny na bc) (hr : ∀ side < 4, bc side = .reflect) (hna : 0 < na) (fixed : Nat → K)
    (up : Bool) (order : List Nat) (hord : order.Perm (List.range 4)) :
    ¬ UniquelySolvable (planeProb (fun a i j => dd2 (mu a) (eta a) (dx i) (dy j) (sig (i + j * nx))) w ss fixed m nx ny na up bc
      order) := by
  have vol : ∀ i j, i < nx → dx ((i + j * nx) % nx) * dy ((i + j * nx) / nx) = dx i * dy j := fun i j hi => by
    rw [Nat.add_mul_mod_self_right, Nat.mod_eq_of_lt hi, Nat.add_mul_div_right _ _ (by omega : 0 < nx),
      Nat.div_eq_of_lt hi, Nat.zero_add]
  have hsw := sweeps2 _ (fun a i j => (C27_schemes_linear (fun x : K => x) (mu a) (eta a) 0 (dx i) (dy j) 0
    (sig (i + j * nx))).2.2.2.1) w nx ny na up bc order hord (fun f c => ss c * f c) fixed (fun _ _ => m) []
  refine C150_singular hsw (V := fun c => dx (c % nx) * dy (c / nx)) (sig := sig) (ss := ss) (m := m) (r := r)
    ⟨hP.weight, fun _ _ _ _ => rfl, hP.norm, fun c hc => mul_pos (hP.hdx _ (Nat.mod_lt _ hP.hx))
      (hP.hdy _ (Nat.div_lt_of_lt_mul hc)), hP.hsig, fun _ _ _ => rfl, hP.scat, hP.nonneg, hP.less, rfl, hP.np⟩
    (dissipates2 _ w nx ny na up bc order _ _ _ _ _ sig (fun a j => mu a / 2 * dy j) (fun a i => eta a / 2 * dx i)
      (fun a ha j hj => mul_pos (half_pos (hP.hmu a ha)) (hP.hdy j hj))
      (fun a ha i hi => mul_pos (half_pos (hP.heta a ha)) (hP.hdx i hi)) fun a ha i hi j hj => by
        rw [vol i j hi]
        exact cell_dd2 _ _ _ _ _ (hP.hmu a ha) (hP.heta a ha) (hP.hdx i hi) (hP.hdy j hj) (hP.hsig _ (cell2_lt hi hj)))
    (C149_silent mu eta w dx dy sig fixed (fun f c => ss c * f c) (fun _ _ => m) [] nx ny na up bc order hord hr fun _ => 1)
    (side := 0) (o := 0) (a := 0) (i := 0) (j := 0) (by change 0 < 4; omega) (hr 0 (by omega)) (by change 0 < 4; omega)
    (by decide) hna
    ((face2 nx ny 0 0 0 (by omega)).2 ⟨hP.hy, rfl⟩) ?_
  change 1 * alternating (mu 0) (eta 0) dx dy nx ny 0 0 0 ≠ 0
  rw [one_mul]
  exact alternating_ne (hP.hmu 0 hna) (hP.heta 0 hna) hP.hdx hP.hdy (by omega) hP.hy

/-! ## Boxes -/

theorem Brick.shut {mu eta xi w dx dy dz sig ss : Nat → K} {m r : K} {nx ny nz na : Nat} {bc : Nat → BC (Nat → Nat → K)}
    (hP : Brick mu eta xi w dx dy dz sig ss m r nx ny nz na bc) :
    Brick mu eta xi w dx dy dz sig ss m r nx ny nz na (shut bc) where
  hmu := hP.hmu
  heta := hP.heta
  hxi := hP.hxi
  weight := hP.weight
  norm := hP.norm
  hdx := hP.hdx
  hdy := hP.hdy
  hdz := hP.hdz
  hsig := hP.hsig
  scat := hP.scat
  nonneg := hP.nonneg
  less := hP.less
  np := fun s _ => by rcases shut_or bc s with e | e <;> rw [e] <;> simp
  hx := hP.hx
  hy := hP.hy
  hz := hP.hz
  fit := hP.fit

/-- The group in a box. -/
abbrev brickProb (mu eta xi w dx dy dz sig ss fixed : Nat → K) (m : K) (nx ny nz na : Nat) (up : Bool)
    (bc : Nat → BC (Nat → Nat → K)) (order : List Nat) : Prob (Nat → Nat → K) K :=
  prob3 (brickSch mu eta xi dx dy dz sig nx ny) w nx ny nz na up bc order (fun f c => ss c * f c) fixed (fun _ _ => m) []

theorem brick_facts {mu eta xi w dx dy dz sig ss : Nat → K} {m r : K} {nx ny nz na : Nat} {bc : Nat → BC (Nat → Nat → K)}
    (hP : Brick mu eta xi w dx dy dz sig ss m r nx ny nz na bc) (fixed : Nat → K) (up : Bool) (order : List Nat)
    (hord : order.Perm (List.range 8)) :
    Sweeps (brickProb mu eta xi w dx dy dz sig ss fixed m nx ny nz na up bc order) w
      (brickSol (brickSch mu eta xi dx dy dz sig nx ny) nx ny nz) ∧
    ∃ V fw, Subcritical (brickProb mu eta xi w dx dy dz sig ss fixed m nx ny nz na up bc order) w V sig ss m r ∧
      Dissipates (brickProb mu eta xi w dx dy dz sig ss fixed m nx ny nz na up bc order)
        (brickSol (brickSch mu eta xi dx dy dz sig nx ny) nx ny nz) V sig fw := by
  have e3 : ∀ k, k * nx * ny = k * (nx * ny) := fun k => Nat.mul_assoc _ _ _
  let V : Nat → K := fun c => dx (c % (nx * ny) % nx) * dy (c % (nx * ny) / nx) * dz (c / (nx * ny))
  have vol : ∀ i j k, i < nx → j < ny → V (i + j * nx + k * nx * ny) = dx i * dy j * dz k := fun i j k hi hj => by
    simp only [V]
    have hc := cell2_lt hi hj
    rw [e3, Nat.add_mul_mod_self_right, Nat.mod_eq_of_lt hc, Nat.add_mul_div_right _ _ (by omega : 0 < nx * ny),
      Nat.div_eq_of_lt hc, Nat.zero_add, Nat.add_mul_mod_self_right, Nat.mod_eq_of_lt hi,
      Nat.add_mul_div_right _ _ (by omega : 0 < nx), Nat.div_eq_of_lt hi, Nat.zero_add]
  have hn2 : 0 < nx * ny := Nat.mul_pos hP.hx hP.hy
  exact ⟨sweeps3 (brickSch mu eta xi dx dy dz sig nx ny) (fun a i j k =>
      (C27_schemes_linear (fun x : K => x) (mu a) (eta a) (xi a) (dx i) (dy j) (dz k) _).2.2.2.2.2.2) w nx ny nz na hP.fit up bc
      order hord (fun f c => ss c * f c) fixed (fun _ _ => m) [],
    V, _, ⟨hP.weight, fun _ _ _ _ => rfl, hP.norm, fun c hc => mul_pos (mul_pos (hP.hdx _ (Nat.mod_lt _ hP.hx))
        (hP.hdy _ (Nat.div_lt_of_lt_mul (Nat.mod_lt _ hn2)))) (hP.hdz _ (Nat.div_lt_of_lt_mul hc)),
      hP.hsig, fun _ _ _ => rfl, hP.scat, hP.nonneg, hP.less, rfl, hP.np⟩,
    dissipates3 (brickSch mu eta xi dx dy dz sig nx ny) w nx ny nz na up bc order _ _ _ _ V sig
      (fun a k j => mu a / 2 * (dy j * dz k))
      (fun a k i => eta a / 2 * (dx i * dz k)) (fun a j i => xi a / 2 * (dx i * dy j))
      (fun a ha k hk j hj => mul_pos (half_pos (hP.hmu a ha)) (mul_pos (hP.hdy j hj) (hP.hdz k hk)))
      (fun a ha k hk i hi => mul_pos (half_pos (hP.heta a ha)) (mul_pos (hP.hdx i hi) (hP.hdz k hk)))
      (fun a ha j hj i hi => mul_pos (half_pos (hP.hxi a ha)) (mul_pos (hP.hdx i hi) (hP.hdy j hj)))
      fun a ha i hi j hj k hk => by
        rw [vol i j k hi hj]
        exact cell_dd3 _ _ _ _ _ _ _ (hP.hmu a ha) (hP.heta a ha) (hP.hxi a ha) (hP.hdx i hi) (hP.hdy j hj)
          (hP.hdz k hk) (hP.hsig _ (cell3_lt hi hj hk))⟩

/-- In boxes the system has exactly one solution if sides across two directions do not reflect. -/
theorem C150_3D_partial {mu eta xi w dx dy dz sig ss : Nat → K} {m r : K} {nx ny nz na : Nat}
    {bc : Nat → BC (Nat → Nat → K)} (hP : Brick mu eta xi w dx dy dz sig ss m r nx ny nz na bc)
    (hopen : ∃ s < 6, ∃ t < 6, bc s ≠ .reflect ∧ bc t ≠ .reflect ∧ s / 2 ≠ t / 2) (fixed : Nat → K) (up : Bool)
    (order : List Nat) (hord : order.Perm (List.range 8)) :
    UniquelySolvable (brickProb mu eta xi w dx dy dz sig ss fixed m nx ny nz na up bc order) := by
  obtain ⟨hsw, V, fw, hS, D⟩ := brick_facts hP fixed up order hord
  obtain ⟨s, hs, t, ht, b1, b2, b3⟩ := hopen
  refine C150_solvable hsw hS D fun pt hpt side hsd o ho a ha i j hi => ?_
  have hsw' := (brick_facts hP.shut (fun _ => 0) up order hord).1
  have hsc : (fun c => ss c * (if c < nx * ny * nz then (0 : K) else 0)) = fun _ => 0 := by funext c; simp
  obtain ⟨psi, k1⟩ := solved_silent hsw' rfl hsc (shut_or bc) (pt := pt)
    ⟨hpt.cells, fun side h1 h2 => hpt.none side h1 (mt (shut_reflect bc side).2 h2),
      fun side h1 h2 => hpt.mirror side h1 ((shut_reflect bc side).1 h2)⟩
  obtain ⟨psi', k2⟩ := solved_silent hsw' rfl hsc (shut_or bc) (solved_nothing hsw')
  obtain ⟨hi1, hi2⟩ := (face3 nx ny nz side i j hsd).1 hi
  exact C149_3D_partial hP.shut ⟨s, hs, t, ht, mt (shut_reflect bc s).1 b1, mt (shut_reflect bc t).1 b2, b3⟩ _ up order hord
    k1 k2 side hsd o ho a ha i hi1 j hi2

/-- The patterns of layers are silent if the sides across `y` and `z` reflect. -/
theorem layered_silent (mu eta xi w dx dy dz sig ss fixed : Nat → K) (m : K) (nx ny nz na : Nat) (up : Bool)
    (bc : Nat → BC (Nat → Nat → K)) (order : List Nat) (hr : ∀ side < 6, 2 ≤ side → bc side = .reflect)
    (amount : Nat → Nat → K) :
    Silent (brickProb mu eta xi w dx dy dz sig ss fixed m nx ny nz na up bc order)
      (brickSol (brickSch mu eta xi dx dy dz sig nx ny) nx ny nz)
      (fun side o a i j => layered (eta a) (xi a) dy dz ny nz (amount a) side o i j) := by
  refine ⟨fun o ho a ha => ⟨fun _ => 0, fun _ _ => rfl,
    layered_solves (mu a) (eta a) (xi a) dx dy dz sig nx ny nz (amount a) o ho⟩, fun side hs hb o ho he a ha i j hi => ?_,
    fun side hs hb o ho he o' hm a ha i j hi => ?_⟩
  · change layered (eta a) (xi a) dy dz ny nz (amount a) side o i j = 0
    have : side < 2 := by
      by_contra h
      exact hb (hr side hs (by omega))
    rw [layered, if_pos this]
  · change layered (eta a) (xi a) dy dz ny nz (amount a) side o' i j = layered (eta a) (xi a) dy dz ny nz (amount a) side o i j
    have m1 : octantSign o' 1 = if 1 = side / 2 then - octantSign o 1 else octantSign o 1 := hm.2 1 (by change 1 < 3; omega)
    have m2 : octantSign o' 2 = if 2 = side / 2 then - octantSign o 2 else octantSign o 2 := hm.2 2 (by change 2 < 3; omega)
    have hs' : side < 6 := hs
    unfold layered
    interval_cases side <;> simp at m1 m2 ⊢ <;> simp [m1, m2]

/-- With mirrors across `y` and `z`, whatever the sides across `x` are, the system of a box has no unique solution. -/
theorem C150_tube {mu eta xi w dx dy dz sig ss : Nat → K} {m r : K} {nx ny nz na : Nat}
    {bc : Nat → BC (Nat → Nat → K)} (hP : Brick mu eta xi w dx dy dz sig ss m r nx ny nz na bc)
    (hr : ∀ side < 6, 2 ≤ side → bc side = .reflect) (hna : 0 < na) (fixed : Nat → K) (up : Bool)
    (order : List Nat) (hord : order.Perm (List.range 8)) :
    ¬ UniquelySolvable (brickProb mu eta xi w dx dy dz sig ss fixed m nx ny nz na up bc order) := by
  obtain ⟨hsw, V, fw, hS, D⟩ := brick_facts hP fixed up order hord
  refine C150_singular hsw hS D
    (layered_silent mu eta xi w dx dy dz sig ss fixed m nx ny nz na up bc order hr fun _ _ => 1)
    (side := 2) (o := 0) (a := 0) (i := 0) (j := 0) (by change 2 < 6; omega) (hr 2 (by omega) (by omega)) (by change 0 < 8; omega)
    (by decide) hna ((face3 nx ny nz 2 0 0 (by omega)).2 ⟨hP.hz, hP.hx⟩) ?_
  change layered (eta 0) (xi 0) dy dz ny nz (fun _ => 1) 2 0 0 0 ≠ 0
  have h1 := hP.hxi 0 hna
  have h2 := hP.hdz 0 hP.hz
  have h3 : xi 0 / dz 0 ≠ 0 := (div_pos h1 h2).ne'
  simp [layered, octantSign, h1.ne', h2.ne']

end main

/-! ## The claim without its exception -/

/-- On every rectangle that scatters less than it collides the system has exactly one solution with diamond differencing. -/
def C150Claim : Prop :=
  ∀ (mu eta w dx dy sig ss fixed : Nat → ℚ) (m r : ℚ) (nx ny na : Nat) (bc : Nat → BC (Nat → ℚ)) (up : Bool)
    (order : List Nat), Plane mu eta w dx dy sig ss m r nx ny na bc → order.Perm (List.range 4) →
    UniquelySolvable (planeProb (fun a i j => dd2 (mu a) (eta a) (dx i) (dy j) (sig (i + j * nx))) w ss fixed m nx ny na up bc
      order)

/-- It fails between four mirrors. -/
theorem C150_claim_fails : ¬ C150Claim := by
  intro h
  have k := h _ _ _ _ _ _ _ (fun _ => 1) _ _ _ _ _ _ true [0, 1, 2, 3] (flat_plane false) (by decide)
  exact C150_four_mirrors (flat_plane false) (fun side _ => by simp [flatSides]) (by omega) (fun _ => 1) true [0, 1, 2, 3]
    (by decide) k

/-- With given fluxes at one side the same rectangle has exactly one solution for every right-hand side. -/
example : UniquelySolvable (planeProb (fun (a i j : Nat) => dd2 (1 / ((a : ℚ) + 2)) (1 / ((a : ℚ) + 3)) (widths i) (widths j) 1)
    (fun _ => 1 / 8) (fun _ => 1 / 2) (fun _ => 1) 1 3 2 2 true (flatSides true) [0, 1, 2, 3]) :=
  C150_2D_partial (flat_plane true) ⟨0, by omega, by simp [flatSides]⟩ _ true [0, 1, 2, 3] (by decide)

/-- So it has between four mirrors with step differencing. -/
example : UniquelySolvable (planeProb (fun (a i j : Nat) => sd2 (1 / ((a : ℚ) + 2)) (1 / ((a : ℚ) + 3)) (widths i) (widths j) 1)
    (fun _ => 1 / 8) (fun _ => 1 / 2) (fun _ => 1) 1 3 2 2 true (flatSides false) [0, 1, 2, 3]) :=
  C150_2D_step (flat_plane false) _ true [0, 1, 2, 3] (by decide)

/-- And a slab between two mirrors with diamond differencing. -/
example : UniquelySolvable (prob1 (fun _ i => dd1 (1 / 2) (widths i) 1) (fun _ => 1 / 2) 3 1 true (fun _ => .reflect) [0, 1]
    (fun f c => 1 / 2 * f c) (fun _ => 1) (fun _ _ => (1 : ℚ)) []) :=
  C150_1D (fun _ => 1 / 2) _ widths (fun _ => 1) (fun _ => 1 / 2) _ 1 (1 / 2) 3 1 true _ [0, 1] (by decide) _
    (fun _ _ => Or.inl rfl) (fun _ _ => by norm_num) (fun _ _ => by norm_num) (by decide +kernel)
    (fun i _ => by unfold widths; positivity) (fun _ _ => one_pos) (fun _ _ => by norm_num) (by norm_num) (by norm_num)
    (fun _ _ => by simp) (by omega)

/-- The vectors of that rectangle have entries for the reflected fluxes: of ten cells at the sides, two entering octants
    and two angles, besides the six cells. -/
example :
    let P := planeProb (fun (a i j : Nat) => dd2 (1 / ((a : ℚ) + 2)) (1 / ((a : ℚ) + 3)) (widths i) (widths j) 1)
      (fun _ => 1 / 8) (fun _ => 1 / 2) (fun _ => 1) 1 3 2 2 true (flatSides false) [0, 1, 2, 3]
    P.N = 6 ∧ P.bsize = 40 := by decide +kernel

/-- A box with vacuum at two sides across different directions, and one with mirrors across two. -/
example : UniquelySolvable (brickProb (fun _ => 1 / 2) (fun _ => 1 / 3) (fun _ => 1 / 4) (fun _ => 1 / 8) widths widths widths
      (fun _ => 1) (fun _ => 1 / 2) (fun _ => 1) (1 : ℚ) 2 1 2 1 true (fun s => if s = 0 ∨ s = 3 then .vacuum else .reflect)
      [0, 1, 2, 3, 4, 5, 6, 7]) ∧
    ¬ UniquelySolvable (brickProb (fun _ => 1 / 2) (fun _ => 1 / 3) (fun _ => 1 / 4) (fun _ => 1 / 8) widths widths widths
      (fun _ => 1) (fun _ => 1 / 2) (fun _ => 1) (1 : ℚ) 2 1 2 1 true (fun s => if s < 2 then .vacuum else .reflect)
      [0, 1, 2, 3, 4, 5, 6, 7]) :=
  ⟨C150_3D_partial (flat_brick _ fun s _ => by split <;> simp) ⟨0, by omega, 3, by omega, by simp, by simp, by omega⟩ _
    true _ (by decide),
   C150_tube (flat_brick _ fun s _ => by split <;> simp) (fun side _ h => if_neg (by omega)) (by omega) _ true _
    (by decide)⟩

end Detran.WGReflect
