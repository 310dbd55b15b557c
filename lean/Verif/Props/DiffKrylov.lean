import Verif.Props.KeffDiff
import Verif.Props.KrylovRun
import Verif.Props.Solver

/-!
# GMRES run on the diffusion system (C155)

`MGDiffusionSolver::solve` hands `DiffusionLossOperator` to the linear solver of the database, GMRES unless it says otherwise.
Here the model of that solver (`Model/Gmres`) is run on the matrix the model of the operator assembles.
-/

namespace Detran.Diffusion

open Detran.Matrix Finset
open Detran.Gmres (RunsTo Regular cut fill fill_cut fill_at)
open Detran.Solver (pcJacobiApply)

variable {K : Type} [Field K] [LinearOrder K] [IsStrictOrderedRing K]

/-- Unknowns of the diffusion solver, MGDiffusionSolver.cc:34. -/
abbrev Loss.unknowns (L : Loss K) : Nat := L.mat.G * L.M.size

/-- The linear solver of the diffusion solver, MGDiffusionSolver.cc:68-70 and 110: its matrix is the assembled loss operator;
    its preconditioner, if any, is linear and nonsingular. -/
structure KrylovSolver (L : Loss K) (C : CSR K) (S : Gmres.Sys (Fin L.unknowns → K)) : Prop where
  matrix : ∀ x, S.A x = cut _ (C.multiply (fill x))
  linP : ∀ Q, S.P = some Q → IsLinearMap K Q
  injP : ∀ Q, S.P = some Q → ∀ v, Q v = 0 → v = 0

section
variable (S : FixedSrc K) (ok : S.OK) (hp : S.L.Pos) (srt : List (Trip K) → List (Trip K)) (hs : IsSort srt)
  (C : CSR K) (bs : List Bool) (hC : S.L.sys.make srt = .ok (some C, bs))

omit [IsStrictOrderedRing K] in
theorem unknown_split {G n p : Nat} (h : p < G * n) : p / n < G ∧ p % n < n ∧ p % n + p / n * n = p := by
  have hn : 0 < n := Nat.pos_of_ne_zero fun e => by simp [e] at h
  exact ⟨(Nat.div_lt_iff_lt_mul hn).2 h, Nat.mod_lt p hn, Nat.mod_add_div' p _⟩

include ok hs hC

theorem product_lhs (x : Nat → K) {p : Nat} (h : p < S.L.unknowns) :
    C.multiply x p = S.L.lhs x (p / S.L.M.size) (p % S.L.M.size) := by
  obtain ⟨C', h1, _, _, h4⟩ := rows S.L ok.op srt hs
  rw [h1, Out.ok.injEq, Prod.mk.injEq, Option.some.injEq] at hC
  obtain ⟨rfl, _⟩ := hC
  obtain ⟨a, b, e⟩ := unknown_split h
  have := h4 x _ ((in_active ok).2 a) _ b
  rw [ok.pos, e] at this
  exact this

/-- Without preconditioner, or with the Jacobi preconditioner on either side, the solver is of this kind. -/
theorem C155_jacobi (side : Gmres.Side) (pre : Bool) :
    KrylovSolver S.L C ⟨fun x => cut _ (C.multiply (fill x)),
      if pre then some fun v => cut _ (pcJacobiApply C (fill v)) else none, side⟩ where
  matrix := fun _ => rfl
  linP := fun Q hQ => by
    cases pre
    · simp at hQ
    · obtain rfl : (fun v => cut _ (pcJacobiApply C (fill v))) = Q := by simpa using hQ
      constructor
      · intro x y
        funext i
        change fill (x + y) i * _ = fill x i * _ + fill y i * _
        rw [fill_at, fill_at, fill_at, Pi.add_apply, add_mul]
      · intro a x
        funext i
        change fill (a • x) i * _ = a * (fill x i * _)
        rw [fill_at, fill_at, Pi.smul_apply, smul_eq_mul, mul_assoc]
  injP := fun Q hQ v hv => by
    cases pre
    · simp at hQ
    · obtain rfl : (fun v => cut _ (pcJacobiApply C (fill v))) = Q := by simpa using hQ
      obtain ⟨C', h1, h2, _, _⟩ := rows S.L ok.op srt hs
      rw [h1, Out.ok.injEq, Prod.mk.injEq, Option.some.injEq] at hC
      obtain ⟨rfl, _⟩ := hC
      have hm : C'.m = S.L.unknowns := by rw [h2, ok.active, card_range]
      funext i
      have := Detran.Solver.C17_jacobi_injective C' (fill v) (fun _ => 0) (fun p h => by
        have := congrFun hv ⟨p, by rw [← hm]; exact h⟩
        change pcJacobiApply C' (fill v) p = 0 at this
        rw [this]
        exact (zero_mul _).symm) i (by rw [hm]; exact i.2)
      rw [fill_at] at this
      exact this

include hp

/-- The system is nonsingular. -/
theorem krylov_regular {u : Nat → K} (hW : S.L.Weak u) {T : Gmres.Sys (Fin S.L.unknowns → K)} (hT : KrylovSolver S.L C T) :
    Regular K T where
  linA := by
    have comb : ∀ (s t : K) x y, T.A (s • x + t • y) = s • T.A x + t • T.A y := fun s t x y => by
      funext i
      have e : fill (s • x + t • y) = fun p => s * fill x p + t * fill y p := by
        funext p
        by_cases h : p < S.L.unknowns <;> simp [Gmres.fill, h]
      rw [hT.matrix, hT.matrix, hT.matrix, e]
      change C.multiply _ i = s * C.multiply _ i + t * C.multiply _ i
      rw [product_lhs S ok srt hs C bs hC _ i.2, product_lhs S ok srt hs C bs hC _ i.2, product_lhs S ok srt hs C bs hC _ i.2,
        lhs_comb]
    exact ⟨fun x y => by simpa using comb 1 1 x y, fun a x => by simpa using comb a 0 x x⟩
  injA := fun w hw => by
    have z : ∀ g c, S.L.lhs (fun _ => 0) g c = 0 := fun g c => by simpa using lhs_comb S.L 0 0 (fun _ => 0) (fun _ => 0) g c
    have key : ∀ g ∈ S.L.active, ∀ c < S.L.M.size, S.L.lhs (fill w) g c = S.L.lhs (fun _ => 0) g c := fun g hg c hc => by
      have hg := (in_active ok).1 hg
      have hlt : c + g * S.L.M.size < S.L.unknowns :=
        calc c + g * S.L.M.size < (g + 1) * S.L.M.size := by rw [Nat.add_mul]; omega
          _ ≤ S.L.mat.G * S.L.M.size := Nat.mul_le_mul_right _ hg
      have h := congrFun hw ⟨_, hlt⟩
      rw [hT.matrix] at h
      change C.multiply (fill w) (c + g * S.L.M.size) = 0 at h
      have hn : 0 < S.L.M.size := by omega
      rw [product_lhs S ok srt hs C bs hC _ hlt, Nat.add_mul_div_right _ _ hn, Nat.div_eq_of_lt hc, Nat.zero_add,
        Nat.add_mul_mod_self_right, Nat.mod_eq_of_lt hc] at h
      rw [h, z]
    funext i
    obtain ⟨a, b, e⟩ := unknown_split i.2
    have k1 := lhs_mono S.L hp hW _ _ (fun g hg c hc => (key g hg c hc).le) _ ((in_active ok).2 a) _ b
    have k2 := lhs_mono S.L hp hW _ _ (fun g hg c hc => (key g hg c hc).ge) _ ((in_active ok).2 a) _ b
    rw [ok.pos, e, fill_at] at k1 k2
    exact le_antisymm k1 k2
  linP := hT.linP
  injP := hT.injP

/-- GMRES on the diffusion system ends with the diffusion fluxes: there is a factor, the same for all sources in the cells
    and at the sides, and every problem with this operator has a solution to which every run goes. -/
theorem C155_diffusion {u : Nat → K} (hW : S.L.Weak u) {T : Gmres.Sys (Fin S.L.unknowns → K)} (hT : KrylovSolver S.L C T) :
    ∃ f : K, 0 ≤ f ∧ ∀ ext fis jin, FixedSrc.OK ⟨S.L, ext, fis, jin⟩ →
      ∃ x : Nat → K, (∀ p < S.L.unknowns, C.multiply x p = FixedSrc.rhs ⟨S.L, ext, fis, jin⟩ p) ∧
        RunsTo T f (cut _ (FixedSrc.rhs ⟨S.L, ext, fis, jin⟩)) (fun _ => True) (cut _ x) := by
  have reg := krylov_regular S ok hp srt hs C bs hC hW hT
  obtain ⟨f, f0, hf⟩ := Gmres.runs T reg
  have inj : Function.Injective (reg.linA.mk' _) := (injective_iff_map_eq_zero _).2 reg.injA
  refine ⟨f, f0, fun ext fis jin _ => ?_⟩
  obtain ⟨v, hv⟩ := LinearMap.injective_iff_surjective.1 inj (cut _ (FixedSrc.rhs ⟨S.L, ext, fis, jin⟩))
  have hv : T.A v = cut _ (FixedSrc.rhs ⟨S.L, ext, fis, jin⟩) := hv
  refine ⟨fill v, fun p h => ?_, ?_⟩
  · rw [hT.matrix] at hv
    exact congrFun hv ⟨p, h⟩
  · have e : cut S.L.unknowns (fill v) = v := funext fun i => fill_at v i
    rw [e]
    exact hf _ _ hv

end

/-- A core of fuel and moderator, vacuum outside, without preconditioner or with the Jacobi preconditioner: every run for
    every fission source goes to the flux of the core. -/
example (srt : List (Trip ℝ) → List (Trip ℝ)) (hs : IsSort srt) (side : Gmres.Side) (pre : Bool) :
    let L := core ℝ (fun c => c % 2) 0
    ∃ C bs, L.sys.make srt = .ok (some C, bs) ∧ ∃ f : ℝ, 0 ≤ f ∧ ∀ q, ∃ x : Nat → ℝ,
      (∀ p < L.unknowns, C.multiply x p = (L.fed q).rhs p) ∧
      RunsTo ⟨fun x => cut L.unknowns (C.multiply (fill x)),
        if pre then some fun v => cut _ (pcJacobiApply C (fill v)) else none, side⟩ f (cut _ (L.fed q).rhs) (fun _ => True) (cut _ x) := by
  intro L
  have sub := core_sub (K := ℝ) (fun c => c % 2) (fun c => Nat.mod_lt _ (by decide)) 0 (Or.inl rfl)
  have ok := fed_ok sub fun _ _ => 0
  obtain ⟨C, h1, -⟩ := rows L ok.op srt hs
  obtain ⟨f, f0, hf⟩ := C155_diffusion _ ok sub.pos srt hs C _ h1 sub.weak (C155_jacobi _ ok srt hs C _ h1 side pre)
  exact ⟨C, _, h1, f, f0, fun q => hf _ _ _ (fed_ok sub q)⟩

end Detran.Diffusion
