import Verif.Props.MGReflect

/-!
# The linear systems of the Krylov solvers while the reflection of the uncollided fluxes is still off

The right-hand sides are built by sweeps that are repeated until the cell fluxes settle; what is then still missing at the
reflecting sides is `eB`.
-/

namespace Detran.WGReflect

open Detran.Sweep (St)
open Detran.Boundary (Bd BC Loc Enters Mirror)
open Finset

section off
variable {F K : Type} [Field K] [LinearOrder K]
variable {P : Prob F K} {w : Nat → K} {Sol : (Nat → K) → Nat → Nat → (Nat → F) → (Nat → K) → Prop}

/-- The flux of a group solves its system up to what is missing at the reflecting sides. -/
theorem complete_off (h : Sweeps P w Sol) (hp : ∀ s < 2 * P.dim, P.bc s ≠ .periodic)
    (R : St F K) (hR : RhsOf P R) (s' : St F K) (phi : Nat → K) (eB : Loc → K) (hm : Mismatch P R.bdy eB)
    (bd : Bd F) (psi : Nat → Nat → Nat → K)
    (hS : Solution P w Sol (P.source P.fixed (P.scat (P.moments phi))) phi (fun _ => 0) (fun _ => 0) bd psi) :
    ∃ x, (∀ c < P.N, (P.off.multiply s' x).2 c = R.phi c) ∧ (∀ l ∈ P.locs, (P.off.multiply s' x).2 (P.slot l) = -eB l) ∧
      ∀ c < P.N, x c = phi c := by
  let x : Nat → K := fun i => if i < P.N then phi i else
    match P.locs[i - P.N]? with
    | some l => P.flat bd l - P.flat R.bdy l
    | none => 0
  have hxc : ∀ c < P.N, x c = phi c := fun c hc => if_pos hc
  have hxl : ∀ l ∈ P.locs, x (P.slot l) = P.flat bd l - P.flat R.bdy l := by
    intro l hl
    have : ¬ P.slot l < P.N := by have := (slot_spec h l hl).1; omega
    simp only [x, if_neg this]
    unfold Prob.slot
    rw [Nat.add_sub_cancel_left, List.getElem?_idxOf hl]
  have hmom : P.moments x = P.moments phi := by
    funext c
    unfold Prob.moments
    split
    · next hc => exact hxc c hc
    · rfl
  refine ⟨x, ?_⟩
  obtain ⟨s1, ⟨s0, e1⟩, m1, m2, m3⟩ := multiply_spec (sweeps_off h) hp s' x
  obtain ⟨upd, s2, b, e2, hs2⟩ := hR.last
  have e1' : s1 = P.sweep false (P.off.source (fun _ => 0) (P.scat (P.moments x))) s0 := e1
  have m2' : ∀ side < 2 * P.dim, ∀ o < 2 ^ P.dim, Enters side o → ∀ a < P.na, ∀ i j, InFace P side i j →
      P.get (s1.bdy side o a) i j = if P.refl side then x (P.slot ⟨side, o, a, i, j⟩) else 0 := m2
  have m3' : ∀ side < 2 * P.dim, P.bc side = .reflect → ∀ o < 2 ^ P.dim, Enters side o → ∀ o', Mirror P.dim side o o' →
      ∀ a < P.na, ∀ i j, InFace P side i j → (P.off.multiply s' x).2 (P.slot ⟨side, o, a, i, j⟩) =
        x (P.slot ⟨side, o, a, i, j⟩) - P.get (s1.bdy side o' a) i j := m3
  obtain ⟨psi2, c2, f2⟩ := h.solves upd (P.source P.fixed (fun _ => 0)) s2
  rw [← e2] at c2 f2
  have hside : ∀ side < 2 * P.dim, P.bc side ≠ .reflect → ∀ o < 2 ^ P.dim, Enters side o → ∀ a < P.na,
      R.bdy side o a = Boundary.set P.dim P.na P.bc (P.clear b) side o a := by
    intro side hs hb o ho he a ha
    rw [e2, sweep_keep h hp upd _ s2 o a ho ha side hs he hb]
    exact hs2 side hs hb o ho he a ha
  obtain ⟨u1, u2⟩ := sweep_unique h (P.off.source (fun _ => 0) (P.scat (P.moments x))) s0
    (P.comb 1 (-1) bd R.bdy) (fun o a c => psi o a c - psi2 o a c)
    (by
      intro o ho a ha
      refine h.lin 1 (-1) _ _ _ o a _ _ _ _ _ _ ho (hS.cells o ho a ha) (c2 o ho a ha) ?_ (fun _ => by ring)
        (fun side hs i j hi => get_comb h 1 (-1) _ _ side hs o a i j hi)
      intro c _
      rw [source_add P.fixed, ← hmom]
      ring)
    (by
      intro side hs o ho he a ha i j hi
      rw [← e1', m2' side hs o ho he a ha i j hi, get_comb h 1 (-1) _ _ side hs o a i j hi]
      by_cases hb : P.bc side = .reflect
      · rw [if_pos ((refl_iff side).2 hb), hxl _ ((mem_locs h side o a i j).2 ⟨hs, hb, ho, he, ha, hi⟩)]
        unfold Prob.flat
        ring
      · rw [if_neg (fun h' => hb ((refl_iff side).1 h')), hside side hs hb o ho he a ha]
        cases hbb : P.bc side with
        | reflect => exact absurd hbb hb
        | periodic => exact absurd hbb (hp side hs)
        | vacuum =>
          rw [hS.vacuum side hs hbb o ho he a ha i j hi,
            (Boundary.C67_set P.dim h.d1 h.d3 P.na P.bc _).2 side o a (by
              rintro ⟨_, ⟨ps, h'⟩, _⟩; rw [hbb] at h'; cases h'), get_clear h _ _ _ _ _ _ hs ho ha hi]
          ring
        | fixed ps =>
          obtain ⟨io, _, hio⟩ := Boundary.C67_set_covers P.dim h.d1 h.d3 side hs o ho he
          rw [hS.given side hs ps hbb o ho io hio a ha i j hi,
            (Boundary.C67_set P.dim h.d1 h.d3 P.na P.bc _).1 side ps hs hbb io o a hio ha]
          ring)
  rw [← e1'] at u1 u2
  refine ⟨fun i hc => ?_, ?_, hxc⟩
  · rw [m1 i hc, u2 i hc, hxc i hc]
    have := hS.flux i hc
    rw [add_zero] at this
    rw [this, f2 i hc]
    simp only [mul_sub, sum_sub_distrib]
    ring
  · rintro ⟨side, o, a, i', j⟩ hl
    obtain ⟨hs, hb, ho, he, ha, hf⟩ := (mem_locs h side o a i' j).1 hl
    obtain ⟨o', hmm, hne⟩ := Boundary.C30_mirror_exists P.dim h.d1 h.d3 side hs o ho he
    rw [m3' side hs hb o ho he o' hmm a ha i' j hf, u1 side hs o' hmm.1 hne a ha i' j hf,
      get_comb h 1 (-1) _ _ side hs o' a i' j hf, hxl _ hl]
    have k1 := hS.reflect side hs hb o ho he o' hmm a ha i' j hf
    have k2 := hm side hs hb o ho he o' hmm a ha i' j hf
    unfold Prob.flat
    dsimp only at k1 k2 ⊢
    linear_combination k1 - k2

end off
end Detran.WGReflect

namespace Detran.MGReflect

open Detran.Sweep (St)
open Detran.Boundary (Bd BC Loc Enters)
open Detran.WGReflect (Sweeps Solution Mismatch InFace RhsOf SameSides NoneIn Sides slot_spec)
open Detran.MGSolve
open Finset

section off
variable {F K : Type} [Field K] [LinearOrder K] [IsStrictOrderedRing K]
variable {P : Prob F K} {w : Nat → K} {k : Nat} {Sol : Nat → (Nat → K) → Nat → Nat → (Nat → F) → (Nat → K) → Prop}

/-- So do the fluxes of coupled groups. -/
theorem block_off (ok : OK P w Sol) (hc : P.Cut k) (hb : P.M.NoBackward k) (tol : K) (phi f : Nat → Nat → K)
    (S S' : Nat → St F K) (eB : Nat → Loc → K) (hm : ∀ g ∈ P.groups k, Mismatch (P.W g) ((P.rhs k tol phi S).1 g).bdy (eB g))
    (hout : ∀ gp, gp ∉ P.groups k → f gp = phi gp) (hf : ∀ g ∈ P.groups k, GroupFlux P w Sol f g) :
    ∃ x, (∀ g ∈ P.groups k, (∀ c < P.M.x.N, P.view k (P.multiply k phi S' x).2 g c = P.view k (P.rhs k tol phi S).2 g c) ∧
        ∀ l ∈ (P.W g).locs, P.view k (P.multiply k phi S' x).2 g ((P.W g).slot l) = -eB g l) ∧
      ∀ g ∈ P.groups k, ∀ c < P.M.x.N, P.fluxes k phi x g c = f g c := by
  have hx : ∀ g, ∃ x : Nat → K, g ∈ P.groups k →
      (∀ c < P.M.x.N, ((P.group k phi f g).off.multiply (S' g) x).2 c = (P.rhsState k tol phi g (S g)).phi c) ∧
      (∀ l ∈ (P.W g).locs, ((P.group k phi f g).off.multiply (S' g) x).2 ((P.W g).slot l) = -eB g l) ∧
      ∀ c < P.M.x.N, x c = f g c := by
    intro g
    by_cases hg : g ∈ P.groups k
    · have hgG := ((mem_groups hc g).1 hg).1
      have hs := sweeps_group (k := k) ok phi f g hgG
      obtain ⟨bd, psi, hS⟩ := hf g hg
      have hN : (P.group k phi f g).N = P.M.x.N := ok.cells g
      have hm' := hm g hg
      rw [(rhs_view hc tol phi S g hg).1] at hm'
      obtain ⟨x, h1, h3, h2⟩ := WGReflect.complete_off hs (ok.np g hgG) (P.rhsState k tol phi g (S g))
        (rhs_of ok tol phi f g hgG (S g)) (S' g) (f g) (eB g) hm' bd psi
        ⟨fun o ho a ha => sol_congr (ok.sw g hgG) ho (hS.cells o ho a ha) fun c hcN =>
          (source_block ok hc hb phi f g hg hout o a c (by rw [ok.cells g] at hcN; exact hcN)).symm,
          hS.flux, hS.vacuum, hS.given, hS.reflect⟩
      rw [hN] at h1 h2
      exact ⟨x, fun _ => ⟨h1, h3, h2⟩⟩
    · exact ⟨fun _ => 0, fun h => absurd h hg⟩
  choose xs hxs using hx
  let x := ((P.groups k).foldl (fun r g => (upd r.1 g (r.1 g), P.put k true r.2 g (xs g))) (S, fun _ => (0 : K))).2
  have hxv : ∀ g ∈ P.groups k, ∀ i < P.M.x.N + P.bs, P.view k x g i = xs g i := by
    intro g hg i hi
    have := (fold_view hc (fun _ => true) (fun g s => (s, xs g)) (P.groups k) (groups_nodup hc) (fun _ h => h) S
      (fun _ => 0) g hg).2 i hi
    exact this.trans (if_pos ⟨hg, .inr rfl⟩)
  have hfl : ∀ gp, ∀ c < P.M.x.N, P.fluxes k phi x gp c = f gp c := by
    intro gp c hcN
    by_cases hg : gp ∈ P.groups k
    · rw [fluxes_in phi x gp hg c hcN, hxv gp hg c (by omega), (hxs gp hg).2.2 c hcN]
    · rw [fluxes_out phi x gp hg, hout gp hg]
  refine ⟨x, fun g hg => ?_, fun g _ c hcN => hfl g c hcN⟩
  have hgG := ((mem_groups hc g).1 hg).1
  have hN : (P.W g).off.N = P.M.x.N := ok.cells g
  have hB : (P.W g).off.bsize = P.bs := ok.bsize g
  have same : ∀ i < P.M.x.N + P.bs, P.view k (P.multiply k phi S' x).2 g i =
      ((P.group k phi f g).off.multiply (S' g) (xs g)).2 i := by
    intro i hi
    rw [(multiply_view ok hc phi S' x g hg).2 i hi]
    have := WGReflect.linear_core (WGReflect.sweeps_off (ok.sw g hgG)) (ok.np g hgG) rfl 1 0 (xs g) (xs g) (P.view k x g)
      (fun i hi => by rw [hN, hB] at hi; rw [hxv g hg i hi]; ring) (P.M.totalScatter f g k) (P.M.totalScatter f g k)
      (P.M.totalScatter (P.fluxes k phi x) g k) (by
        intro c hcN
        rw [hN] at hcN
        rw [total_local ok hc _ f g hg c hcN (fun gp _ => hfl gp c hcN) (.inr fun gp _ => hfl gp c hcN)]
        ring) (S' g) (S' g) (S' g) i (by rwa [hN, hB])
    refine this.trans ?_
    rw [one_mul, zero_mul, add_zero]
    rfl
  refine ⟨fun c hcN => ?_, fun l hl => ?_⟩
  · rw [same c (by omega), (hxs g hg).1 c hcN, (rhs_view hc tol phi S g hg).2 c (by omega), if_pos hcN]
  · rw [same _ (by rw [← hN, ← hB]; exact (slot_spec (ok.sw g hgG) l hl).2.1), (hxs g hg).2.1 l hl]

end off
end Detran.MGReflect
