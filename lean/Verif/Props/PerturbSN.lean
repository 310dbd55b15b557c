import Verif.Props.Recip

/-!
# Perturbation theory in transport (C147)
-/

namespace Detran.MGReflect
open Detran.Boundary (Bd BC Loc Enters Mirror)
open Detran.WGReflect (Sweeps Solution rev)
open Detran.MGSolve Detran.Material Detran.Sweep
open Finset

section main
variable {F K : Type} [Field K] [LinearOrder K]
variable {P : Prob F K} {w V : Nat → K} {m : K}
  {Sol : Nat → (Nat → K) → Nat → Nat → (Nat → F) → (Nat → K) → Prop} {fw : Nat → Nat → Nat → Nat → Nat → K}

/-- The problem with other scattering and fission data. -/
def Prob.changed (P : Prob F K) (mat : Mat K) (mm : Nat → Nat) : Prob F K :=
  ⟨{ P.M with x := { P.M.x with mat := mat, mmap := mm } }, P.W⟩

/-- An angular flux solving the cell equations `Sol1` of the changed totals solves the old ones `Sol` with the additional collisions taken out of
    the source. -/
def MoreTotal (P : Prob F K) (Sol Sol1 : Nat → (Nat → K) → Nat → Nat → (Nat → F) → (Nat → K) → Prop) (d : Nat → Nat → K) : Prop :=
  ∀ g < P.M.x.mat.G, ∀ q o a b p, a < (P.W g).na → Sol1 g q o a b p → Sol g (fun c => q c - d g c * p c) o a b p

/-- `phi` and `psi` are scalar and angular fluxes of a mode of the changed problem with factor `k1`, `phi'` and `psi'` of a mode of the solvers' other
    mode for the old problem with factor `k0`. -/
def Modes (P : Prob F K) (w : Nat → K) (Sol Sol1 : Nat → (Nat → K) → Nat → Nat → (Nat → F) → (Nat → K) → Prop) (mat : Mat K) (mm : Nat → Nat)
    (k0 k1 : K) (phi phi' : Nat → Nat → K) (psi psi' : Nat → Nat → Nat → Nat → K) : Prop :=
  ∃ (q' : Nat → Nat → K) (b b' : Nat → Bd F),
    (∀ g < P.M.x.mat.G, Solution (((P.changed mat mm).fed k1 phi).W g) w (Sol1 g) (((P.changed mat mm).fed k1 phi).src phi g) (phi g)
      (fun _ => 0) (fun _ => 0) (b g) (psi g)) ∧
    ∀ g < P.M.x.mat.G, Solution ((((P.flip q').fed k0 phi')).W g) w (Sol g) (((P.flip q').fed k0 phi').src phi' g) (phi' g)
      (fun _ => 0) (fun _ => 0) (b' g) (psi' g)

/-- Births of the changed problem by the importance. -/
def worth (P : Prob F K) (V : Nat → K) (q phi' : Nat → Nat → K) : K :=
  ∑ g ∈ range P.M.x.mat.G, ∑ c ∈ range P.M.x.N, V c * (q g c * phi' g c)

/-- Collisions gained, in the mean over directions paired with the opposite ones. -/
def collided (P : Prob F K) (w V : Nat → K) (d : Nat → Nat → K) (psi psi' : Nat → Nat → Nat → Nat → K) : K :=
  ∑ g ∈ range P.M.x.mat.G, ∑ c ∈ range P.M.x.N, V c * (d g c * ∑ o ∈ range (2 ^ (P.W g).dim), ∑ a ∈ range (P.W g).na,
        w a * (psi g o a c * psi' g (rev (P.W g).dim o) a c))

/-- The change of reactivity, exactly, with the angular fluxes `psi` of the changed problem and `psi'` of the other mode of the old one: the births
    gained, less the collisions gained, plus the scattering gained. -/
theorem C147_transport (ok : OK P w Sol) (hP : Paired P w Sol V fw m) {mat : Mat K} {mm : Nat → Nat} (hG : mat.G = P.M.x.mat.G)
    {Sol1 : Nat → (Nat → K) → Nat → Nat → (Nat → F) → (Nat → K) → Prop} {d : Nat → Nat → K} (hd : MoreTotal P Sol Sol1 d)
    (k0 k1 : K) (phi phi' : Nat → Nat → K) (psi psi' : Nat → Nat → Nat → Nat → K) (hm : Modes P w Sol Sol1 mat mm k0 k1 phi phi' psi psi') :
    (1 / k0 - 1 / k1) * worth P V ((P.changed mat mm).made phi) phi' =
      1 / k0 * worth P V (fun g c => (P.changed mat mm).made phi g c - P.made phi g c) phi' - 1 / m * collided P w V d psi psi' +
      worth P V (fun g c => ∑ gp ∈ range P.M.x.mat.G, phi gp c *
        (xs mat.sigS P.M.x.adjoint g gp (mm c) - xs P.M.x.mat.sigS P.M.x.adjoint g gp (P.M.x.mmap c))) phi' := by
  obtain ⟨q', b, b', h, h'⟩ := hm
  unfold worth collided
  let Q : Prob F K := ⟨{ P.M with
    implicit := false
    q := fun g c => 1 / k1 * (P.changed mat mm).made phi g c + ∑ gp ∈ range P.M.x.mat.G, phi gp c *
      (xs mat.sigS P.M.x.adjoint g gp (mm c) - xs P.M.x.mat.sigS P.M.x.adjoint g gp (P.M.x.mmap c)) },
    fun g => { P.W g with disc := [fun o a c => -(d g c * psi g o a c)] }⟩
  have okQ : OK Q w Sol := ⟨⟨ok.src.fin, ok.src.nn, ok.src.map, ok.src.add, ok.src.loc⟩, ok.cells, ok.bsize,
    fun g hg => ⟨(ok.sw g hg).d1, (ok.sw g hg).d3, (ok.sw g hg).order, (ok.sw g hg).face, (ok.sw g hg).other, (ok.sw g hg).inc,
      (ok.sw g hg).solves, (ok.sw g hg).lin, (ok.sw g hg).det⟩, ok.np⟩
  have hPQ : Paired Q w Sol V fw m := ⟨fun g hg => hP.opp g hg, fun g hg => hP.mtod g hg, hP.mne, fun g hg => hP.bc g hg⟩
  have hs : ∀ g < Q.M.x.mat.G, Solution (Q.W g) w (Sol g) (Q.src phi g) (phi g) (fun _ => 0) (fun _ => 0) (b g) (psi g) := by
    intro g hg
    have hh := h g hg
    refine ⟨fun o ho a ha => ?_, hh.flux, hh.vacuum, hh.given, hh.reflect⟩
    have e : Q.src phi g o a = fun c => ((P.changed mat mm).fed k1 phi).src phi g o a c - d g c * psi g o a c := by
      funext c
      have s1 : ((P.changed mat mm).fed k1 phi).M.source phi g c = Q.M.source phi g c := by
        unfold Prob.source
        show 1 / k1 * _ + ∑ gp ∈ range mat.G, phi gp c * xs mat.sigS P.M.x.adjoint g gp (mm c) + _ =
          1 / k1 * _ + ∑ gp ∈ range P.M.x.mat.G, phi gp c * _ + ∑ gp ∈ range P.M.x.mat.G, phi gp c * xs P.M.x.mat.sigS P.M.x.adjoint g gp (P.M.x.mmap c) + _
        rw [hG]
        simp only [mul_sub, sum_sub_distrib]
        show _ + (if false = true then _ else 0) = _ + (if false = true then _ else 0)
        simp only [Bool.false_eq_true, if_false]
        ring
      show Q.M.source phi g c * _ + _ = ((P.changed mat mm).fed k1 phi).M.source phi g c * _ + _ - _
      rw [s1]
      show _ + ([fun o a c => -(d g c * psi g o a c)].map fun t => t o a c).sum = _ + (([] : List (Nat → Nat → Nat → K)).map fun t => t o a c).sum - _
      simp only [List.map_cons, List.map_nil, List.sum_cons, List.sum_nil, add_zero]
      show Q.M.source phi g c * (P.W g).mtod o a + _ = Q.M.source phi g c * (P.W g).mtod o a - _
      ring
    rw [e]
    exact hd g hg _ o a _ _ ha (hh.cells o ho a ha)
  have T := C130_directional okQ hPQ (fun g c => 1 / k0 * (P.flip q').made phi' g c) phi phi' b b' psi psi' hs h'
  have e1 : ∑ g ∈ range P.M.x.mat.G, ∑ c ∈ range P.M.x.N, V c * (1 / k0 * (P.flip q').made phi' g c * phi g c) =
      1 / k0 * ∑ g ∈ range P.M.x.mat.G, ∑ c ∈ range P.M.x.N, V c * (P.made phi g c * phi' g c) := by
    rw [← made_flip P q' phi phi', mul_sum]
    refine sum_congr rfl fun g _ => ?_
    rw [mul_sum]
    exact sum_congr rfl fun c _ => by ring
  have e2 : ∑ g ∈ range P.M.x.mat.G, ∑ c ∈ range P.M.x.N, V c * (Q.M.q g c * phi' g c) =
      1 / k1 * ∑ g ∈ range P.M.x.mat.G, ∑ c ∈ range P.M.x.N, V c * ((P.changed mat mm).made phi g c * phi' g c) +
      ∑ g ∈ range P.M.x.mat.G, ∑ c ∈ range P.M.x.N, V c * ((∑ gp ∈ range P.M.x.mat.G, phi gp c *
        (xs mat.sigS P.M.x.adjoint g gp (mm c) - xs P.M.x.mat.sigS P.M.x.adjoint g gp (P.M.x.mmap c))) * phi' g c) := by
    rw [mul_sum, ← sum_add_distrib]
    refine sum_congr rfl fun g _ => ?_
    rw [mul_sum, ← sum_add_distrib]
    refine sum_congr rfl fun c _ => ?_
    show V c * ((1 / k1 * _ + _) * phi' g c) = _
    ring
  have e3 : ∑ g ∈ range P.M.x.mat.G, ∑ c ∈ range P.M.x.N, V c * ∑ o ∈ range (2 ^ (P.W g).dim), ∑ a ∈ range (P.W g).na,
        w a * (Q.discSum g o a c * psi' g (rev (P.W g).dim o) a c) =
      -∑ g ∈ range P.M.x.mat.G, ∑ c ∈ range P.M.x.N, V c * (d g c * ∑ o ∈ range (2 ^ (P.W g).dim), ∑ a ∈ range (P.W g).na,
        w a * (psi g o a c * psi' g (rev (P.W g).dim o) a c)) := by
    rw [← sum_neg_distrib]
    refine sum_congr rfl fun g _ => ?_
    rw [← sum_neg_distrib]
    refine sum_congr rfl fun c _ => ?_
    rw [← mul_neg]
    congr 1
    rw [mul_sum, ← sum_neg_distrib]
    refine sum_congr rfl fun o _ => ?_
    rw [mul_sum, ← sum_neg_distrib]
    refine sum_congr rfl fun a _ => ?_
    have : Q.discSum g o a c = -(d g c * psi g o a c) := by
      show ([fun o a c => -(d g c * psi g o a c)].map fun t => t o a c).sum = _
      simp
    rw [this]
    ring
  have e4 : ∑ g ∈ range P.M.x.mat.G, ∑ c ∈ range P.M.x.N, V c * (((P.changed mat mm).made phi g c - P.made phi g c) * phi' g c) =
      (∑ g ∈ range P.M.x.mat.G, ∑ c ∈ range P.M.x.N, V c * ((P.changed mat mm).made phi g c * phi' g c)) -
      ∑ g ∈ range P.M.x.mat.G, ∑ c ∈ range P.M.x.N, V c * (P.made phi g c * phi' g c) := by
    rw [← sum_sub_distrib]
    refine sum_congr rfl fun g _ => ?_
    rw [← sum_sub_distrib]
    exact sum_congr rfl fun c _ => by ring
  have T' : m * (1 / k0 * ∑ g ∈ range P.M.x.mat.G, ∑ c ∈ range P.M.x.N, V c * (P.made phi g c * phi' g c)) =
      m * (∑ g ∈ range P.M.x.mat.G, ∑ c ∈ range P.M.x.N, V c * (Q.M.q g c * phi' g c)) +
      ∑ g ∈ range P.M.x.mat.G, ∑ c ∈ range P.M.x.N, V c * ∑ o ∈ range (2 ^ (P.W g).dim), ∑ a ∈ range (P.W g).na,
        w a * (Q.discSum g o a c * psi' g (rev (P.W g).dim o) a c) := by
    rw [← e1]
    exact T
  rw [e2, e3] at T'
  rw [e4]
  have hmne := hP.mne
  field_simp at T' ⊢
  linear_combination T'

/-- More collisions, less scattering and fewer births lower the factor, strictly where directions of flux and importance meet additional collisions. -/
theorem C147_transport_worse [IsStrictOrderedRing K] (ok : OK P w Sol) (hP : Paired P w Sol V fw m) {mat : Mat K} {mm : Nat → Nat}
    (hG : mat.G = P.M.x.mat.G) {Sol1 : Nat → (Nat → K) → Nat → Nat → (Nat → F) → (Nat → K) → Prop} {d : Nat → Nat → K}
    (hd : MoreTotal P Sol Sol1 d) {k0 k1 : K} (h0 : 0 < k0) (h1 : 0 < k1) {phi phi' : Nat → Nat → K} {psi psi' : Nat → Nat → Nat → Nat → K}
    (hm : Modes P w Sol Sol1 mat mm k0 k1 phi phi' psi psi') (hV : ∀ c < P.M.x.N, 0 < V c) (m0 : 0 < m)
    (hw : ∀ g < P.M.x.mat.G, ∀ a < (P.W g).na, 0 < w a)
    (n0 : ∀ g < P.M.x.mat.G, ∀ c < P.M.x.N, 0 ≤ phi g c) (n1 : ∀ g < P.M.x.mat.G, ∀ c < P.M.x.N, 0 ≤ phi' g c)
    (p0 : ∀ g < P.M.x.mat.G, ∀ o < 2 ^ (P.W g).dim, ∀ a < (P.W g).na, ∀ c < P.M.x.N, 0 ≤ psi g o a c)
    (p1 : ∀ g < P.M.x.mat.G, ∀ o < 2 ^ (P.W g).dim, ∀ a < (P.W g).na, ∀ c < P.M.x.N, 0 ≤ psi' g (rev (P.W g).dim o) a c)
    (ht : ∀ g < P.M.x.mat.G, ∀ c < P.M.x.N, 0 ≤ d g c)
    (hsc : ∀ g < P.M.x.mat.G, ∀ gp < P.M.x.mat.G, ∀ c < P.M.x.N,
      xs mat.sigS P.M.x.adjoint g gp (mm c) ≤ xs P.M.x.mat.sigS P.M.x.adjoint g gp (P.M.x.mmap c))
    (hfi : ∀ g < P.M.x.mat.G, ∀ c < P.M.x.N, (P.changed mat mm).made phi g c ≤ P.made phi g c)
    (hB : 0 < worth P V ((P.changed mat mm).made phi) phi') :
    k1 ≤ k0 ∧ ∀ g < P.M.x.mat.G, ∀ o < 2 ^ (P.W g).dim, ∀ a < (P.W g).na, ∀ c < P.M.x.N, 0 < d g c → 0 < psi g o a c →
      0 < psi' g (rev (P.W g).dim o) a c → k1 < k0 := by
  have T := C147_transport ok hP hG hd k0 k1 phi phi' psi psi' hm
  have wneg : ∀ q : Nat → Nat → K, (∀ g < P.M.x.mat.G, ∀ c < P.M.x.N, q g c ≤ 0) → worth P V q phi' ≤ 0 := fun q hq =>
    sum_nonpos fun g hg => sum_nonpos fun c hc => mul_nonpos_of_nonneg_of_nonpos (hV c (mem_range.1 hc)).le
      (mul_nonpos_of_nonpos_of_nonneg (hq g (mem_range.1 hg) c (mem_range.1 hc)) (n1 g (mem_range.1 hg) c (mem_range.1 hc)))
  have a1 := wneg (fun g c => (P.changed mat mm).made phi g c - P.made phi g c) fun g hg c hc => sub_nonpos.2 (hfi g hg c hc)
  have a2 := wneg (fun g c => ∑ gp ∈ range P.M.x.mat.G, phi gp c *
        (xs mat.sigS P.M.x.adjoint g gp (mm c) - xs P.M.x.mat.sigS P.M.x.adjoint g gp (P.M.x.mmap c))) fun g hg c hc =>
    sum_nonpos fun gp hgp => mul_nonpos_of_nonneg_of_nonpos (n0 gp (mem_range.1 hgp) c hc) (sub_nonpos.2 (hsc g hg gp (mem_range.1 hgp) c hc))
  have t0 : ∀ g < P.M.x.mat.G, ∀ c < P.M.x.N, ∀ o < 2 ^ (P.W g).dim, ∀ a < (P.W g).na,
      0 ≤ w a * (psi g o a c * psi' g (rev (P.W g).dim o) a c) := fun g hg c hc o ho a ha =>
    mul_nonneg (hw g hg a ha).le (mul_nonneg (p0 g hg o ho a ha c hc) (p1 g hg o ho a ha c hc))
  have t1 : ∀ g < P.M.x.mat.G, ∀ c < P.M.x.N, 0 ≤ ∑ o ∈ range (2 ^ (P.W g).dim), ∑ a ∈ range (P.W g).na,
        w a * (psi g o a c * psi' g (rev (P.W g).dim o) a c) := fun g hg c hc =>
    sum_nonneg fun o ho => sum_nonneg fun a ha => t0 g hg c hc o (mem_range.1 ho) a (mem_range.1 ha)
  have t2 : ∀ g < P.M.x.mat.G, ∀ c < P.M.x.N, 0 ≤ V c * (d g c * ∑ o ∈ range (2 ^ (P.W g).dim), ∑ a ∈ range (P.W g).na,
        w a * (psi g o a c * psi' g (rev (P.W g).dim o) a c)) := fun g hg c hc =>
    mul_nonneg (hV c hc).le (mul_nonneg (ht g hg c hc) (t1 g hg c hc))
  have a3 : 0 ≤ collided P w V d psi psi' :=
    sum_nonneg fun g hg => sum_nonneg fun c hc => t2 g (mem_range.1 hg) c (mem_range.1 hc)
  have a4 : 1 / k0 * worth P V (fun g c => (P.changed mat mm).made phi g c - P.made phi g c) phi' ≤ 0 :=
    mul_nonpos_of_nonneg_of_nonpos (by positivity) a1
  have le_of : (1 / k0 - 1 / k1) * worth P V ((P.changed mat mm).made phi) phi' ≤ 0 → k1 ≤ k0 := fun h => by
    have : 1 / k0 - 1 / k1 ≤ 0 := by
      by_contra hn
      exact absurd h (not_le.2 (mul_pos (not_le.1 hn) hB))
    exact (one_div_le_one_div h0 h1).1 (by linarith)
  have lt_of : (1 / k0 - 1 / k1) * worth P V ((P.changed mat mm).made phi) phi' < 0 → k1 < k0 := fun h => by
    have : 1 / k0 - 1 / k1 < 0 := by
      by_contra hn
      exact absurd h (not_lt.2 (mul_nonneg (not_lt.1 hn) hB.le))
    exact (one_div_lt_one_div h0 h1).1 (by linarith)
  refine ⟨le_of ?_, fun g hg o ho a ha c hc hdp hps hps' => lt_of ?_⟩
  · have : 0 ≤ 1 / m * collided P w V d psi psi' := mul_nonneg (by positivity) a3
    linarith
  · have : 0 < 1 / m * collided P w V d psi psi' := by
      refine mul_pos (by positivity) ?_
      have q1 : 0 < ∑ o ∈ range (2 ^ (P.W g).dim), ∑ a ∈ range (P.W g).na, w a * (psi g o a c * psi' g (rev (P.W g).dim o) a c) :=
        sum_pos' (fun o ho => sum_nonneg fun a ha => t0 g hg c hc o (mem_range.1 ho) a (mem_range.1 ha)) ⟨o, mem_range.2 ho,
          sum_pos' (fun a ha => t0 g hg c hc o ho a (mem_range.1 ha)) ⟨a, mem_range.2 ha, mul_pos (hw g hg a ha) (mul_pos hps hps')⟩⟩
      exact sum_pos' (fun g hg => sum_nonneg fun c hc => t2 g (mem_range.1 hg) c (mem_range.1 hc)) ⟨g, mem_range.2 hg,
        sum_pos' (fun c hc => t2 g hg c (mem_range.1 hc)) ⟨c, mem_range.2 hc, mul_pos (hV c hc) (mul_pos hdp q1)⟩⟩
    linarith

end main

/-! ## Schemes -/

section schemes
variable {K : Type} [Field K]

theorem dd1_more {mu dx s0 s1 q p : K} (h0 : s0 + 2 * mu / dx ≠ 0) (h1 : s1 + 2 * mu / dx ≠ 0) :
    dd1 mu dx s0 (q - (s1 - s0) * (dd1 mu dx s1 q p).1) p = dd1 mu dx s1 q p := by
  have e : (dd1 mu dx s0 (q - (s1 - s0) * (dd1 mu dx s1 q p).1) p).1 = (dd1 mu dx s1 q p).1 := by
    simp only [dd1]
    generalize 2 * mu / dx = c at *
    field_simp
    ring
  exact Prod.ext e (by
    show 2 * (dd1 mu dx s0 (q - (s1 - s0) * (dd1 mu dx s1 q p).1) p).1 - p = 2 * (dd1 mu dx s1 q p).1 - p
    rw [e])

theorem sd1_more {mu dx s0 s1 q p : K} (h0 : s0 + mu / dx ≠ 0) (h1 : s1 + mu / dx ≠ 0) :
    sd1 mu dx s0 (q - (s1 - s0) * (sd1 mu dx s1 q p).1) p = sd1 mu dx s1 q p := by
  have e : (sd1 mu dx s0 (q - (s1 - s0) * (sd1 mu dx s1 q p).1) p).1 = (sd1 mu dx s1 q p).1 := by
    simp only [sd1]
    generalize mu / dx = c at *
    field_simp
    ring
  exact Prod.ext e e

theorem dd2_more {mu eta dx dy s0 s1 q : K} {p : K × K} (h0 : s0 + 2 * mu / dx + 2 * eta / dy ≠ 0) (h1 : s1 + 2 * mu / dx + 2 * eta / dy ≠ 0) :
    dd2 mu eta dx dy s0 (q - (s1 - s0) * (dd2 mu eta dx dy s1 q p).1) p = dd2 mu eta dx dy s1 q p := by
  have e : (dd2 mu eta dx dy s0 (q - (s1 - s0) * (dd2 mu eta dx dy s1 q p).1) p).1 = (dd2 mu eta dx dy s1 q p).1 := by
    simp only [dd2]
    generalize 2 * mu / dx = c at *
    generalize 2 * eta / dy = c' at *
    field_simp
    ring
  refine Prod.ext e ?_
  show (2 * (dd2 mu eta dx dy s0 (q - (s1 - s0) * (dd2 mu eta dx dy s1 q p).1) p).1 - p.1,
    2 * (dd2 mu eta dx dy s0 (q - (s1 - s0) * (dd2 mu eta dx dy s1 q p).1) p).1 - p.2) =
    (2 * (dd2 mu eta dx dy s1 q p).1 - p.1, 2 * (dd2 mu eta dx dy s1 q p).1 - p.2)
  rw [e]

theorem sd2_more {mu eta dx dy s0 s1 q : K} {p : K × K} (h0 : s0 + mu / dx + eta / dy ≠ 0) (h1 : s1 + mu / dx + eta / dy ≠ 0) :
    sd2 mu eta dx dy s0 (q - (s1 - s0) * (sd2 mu eta dx dy s1 q p).1) p = sd2 mu eta dx dy s1 q p := by
  have e : (sd2 mu eta dx dy s0 (q - (s1 - s0) * (sd2 mu eta dx dy s1 q p).1) p).1 = (sd2 mu eta dx dy s1 q p).1 := by
    simp only [sd2]
    generalize mu / dx = c at *
    generalize eta / dy = c' at *
    field_simp
    ring
  exact Prod.ext e (Prod.ext e e)

theorem dd3_more {mu eta xi dx dy dz s0 s1 q : K} {p : K × K × K} (h0 : s0 + 2 * mu / dx + 2 * eta / dy + 2 * xi / dz ≠ 0)
    (h1 : s1 + 2 * mu / dx + 2 * eta / dy + 2 * xi / dz ≠ 0) :
    dd3 mu eta xi dx dy dz s0 (q - (s1 - s0) * (dd3 mu eta xi dx dy dz s1 q p).1) p = dd3 mu eta xi dx dy dz s1 q p := by
  have e : (dd3 mu eta xi dx dy dz s0 (q - (s1 - s0) * (dd3 mu eta xi dx dy dz s1 q p).1) p).1 = (dd3 mu eta xi dx dy dz s1 q p).1 := by
    simp only [dd3]
    generalize 2 * mu / dx = c at *
    generalize 2 * eta / dy = c' at *
    generalize 2 * xi / dz = c'' at *
    field_simp
    ring
  refine Prod.ext e ?_
  show (2 * (dd3 mu eta xi dx dy dz s0 (q - (s1 - s0) * (dd3 mu eta xi dx dy dz s1 q p).1) p).1 - p.1,
    2 * (dd3 mu eta xi dx dy dz s0 (q - (s1 - s0) * (dd3 mu eta xi dx dy dz s1 q p).1) p).1 - p.2.1,
    2 * (dd3 mu eta xi dx dy dz s0 (q - (s1 - s0) * (dd3 mu eta xi dx dy dz s1 q p).1) p).1 - p.2.2) =
    (2 * (dd3 mu eta xi dx dy dz s1 q p).1 - p.1, 2 * (dd3 mu eta xi dx dy dz s1 q p).1 - p.2.1, 2 * (dd3 mu eta xi dx dy dz s1 q p).1 - p.2.2)
  rw [e]

end schemes

/-! ## Meshes -/

section geom
variable {K : Type} [Field K] [LinearOrder K] [IsStrictOrderedRing K]

/-- 1-D, diamond or step differencing, any mesh, any quadrature. -/
theorem C147_1D (M : MGSolve.Prob K) (hM : M.OK) (mu w dx : Nat → K) (sig sig1 : Nat → Nat → K) (m : K) (hm : m ≠ 0)
    (na : Nat) (up : Bool) (bc : Nat → Nat → BC K) (order : List Nat) (hord : order.Perm (List.range 2))
    (sch sch1 : Nat → Nat → Nat → K → K → K × K)
    (hsch : ∀ g a i, sch g a i = dd1 (mu a) (dx i) (sig g i) ∧ sch1 g a i = dd1 (mu a) (dx i) (sig1 g i) ∨
      sch g a i = sd1 (mu a) (dx i) (sig g i) ∧ sch1 g a i = sd1 (mu a) (dx i) (sig1 g i))
    (hmu : ∀ a < na, 0 < mu a) (hdx : ∀ i < M.x.N, 0 < dx i) (hs : ∀ g < M.x.mat.G, ∀ i < M.x.N, 0 < sig g i)
    (hs1 : ∀ g < M.x.mat.G, ∀ i < M.x.N, 0 < sig1 g i)
    (hr : ∀ g s, bc g s = .reflect ↔ bc 0 s = .reflect) (hb : ∀ g, ∀ s < 2, bc g s = .vacuum ∨ bc g s = .reflect) :
    let P := mg1 M sch w M.x.N na up bc order (fun _ _ => m) (fun _ => [])
    let Sol := fun g q o a b p => Solves1 M.x.N (fun i => sch g a i (q i)) o b p
    let Sol1 := fun g q o a b p => Solves1 M.x.N (fun i => sch1 g a i (q i)) o b p
    OK P w Sol ∧ Paired P w Sol dx (fun _ _ a _ _ => mu a) m ∧ MoreTotal P Sol Sol1 fun g c => sig1 g c - sig g c := by
  have lin : ∀ g a i, LinEq1 (sch g a i) := fun g a i => by
    obtain ⟨l1, l2, l3, _⟩ := C27_schemes_linear (fun x => x) (mu a) 0 0 (dx i) 0 0 (sig g i)
    rcases hsch g a i with ⟨e, _⟩ | ⟨e, _⟩ <;> rw [e] <;> assumption
  refine ⟨C125_ok1 M hM sch lin w na up bc order hord _ _ hr fun g => sides_ok (hb g),
    ⟨fun g hg => WGReflect.reciprocal1 (sch g) w M.x.N na up (bc g) order _ _ _ _ dx mu ?_, fun _ _ _ _ _ _ => rfl, hm, fun g _ => hb g⟩, ?_⟩
  · intro a ha i hi
    have h1 := hmu a ha
    have h2 := hdx i hi
    have h3 := hs g hg i hi
    rcases hsch g a i with ⟨e, _⟩ | ⟨e, _⟩ <;> rw [e]
    · exact WGReflect.recip_dd1 _ _ _ h2.ne' (by positivity)
    · exact WGReflect.recip_sd1 _ _ _ h2.ne' (by positivity)
  · rintro g hg q o a b p ha ⟨V, v0, v1, hc⟩
    refine ⟨V, v0, v1, fun t ht => ?_⟩
    have hi := WGReflect.posn_lt (o := o) (d := 0) ht
    have h1 := hmu a ha
    have h2 := hdx _ hi
    have h3 := hs g hg _ hi
    have h4 := hs1 g hg _ hi
    have e := hc t ht
    have ep := congrArg Prod.fst e
    simp only at ep
    rw [← e]
    beta_reduce
    rw [← ep]
    rcases hsch g a (posn M.x.N o 0 t) with ⟨e0, e1⟩ | ⟨e0, e1⟩ <;> rw [e0, e1]
    · exact dd1_more (by positivity) (by positivity)
    · exact sd1_more (by positivity) (by positivity)

/-- 2-D, diamond or step differencing. -/
theorem C147_2D (M : MGSolve.Prob K) (hM : M.OK) (mu eta w dx dy : Nat → K) (sig sig1 : Nat → Nat → K) (m : K)
    (hm : m ≠ 0) (nx ny na : Nat) (hN : nx * ny = M.x.N) (up : Bool) (bc : Nat → Nat → BC (Nat → K)) (order : List Nat)
    (hord : order.Perm (List.range 4)) (sch sch1 : Nat → Nat → Nat → Nat → K → K × K → K × (K × K))
    (hsch : ∀ g a i j, sch g a i j = dd2 (mu a) (eta a) (dx i) (dy j) (sig g (i + j * nx)) ∧
      sch1 g a i j = dd2 (mu a) (eta a) (dx i) (dy j) (sig1 g (i + j * nx)) ∨
      sch g a i j = sd2 (mu a) (eta a) (dx i) (dy j) (sig g (i + j * nx)) ∧
      sch1 g a i j = sd2 (mu a) (eta a) (dx i) (dy j) (sig1 g (i + j * nx)))
    (hmu : ∀ a < na, 0 < mu a) (heta : ∀ a < na, 0 < eta a) (hdx : ∀ i < nx, 0 < dx i) (hdy : ∀ j < ny, 0 < dy j)
    (hs : ∀ g < M.x.mat.G, ∀ i < nx, ∀ j < ny, 0 < sig g (i + j * nx))
    (hs1 : ∀ g < M.x.mat.G, ∀ i < nx, ∀ j < ny, 0 < sig1 g (i + j * nx))
    (hr : ∀ g s, bc g s = .reflect ↔ bc 0 s = .reflect) (hb : ∀ g, ∀ s < 4, bc g s = .vacuum ∨ bc g s = .reflect) :
    let P := mg2 M sch w nx ny na up bc order (fun _ _ => m) (fun _ => [])
    let Sol := fun g q o a b p => Solves2 nx ny (fun i j => sch g a i j (q (i + j * nx))) o b p
    let Sol1 := fun g q o a b p => Solves2 nx ny (fun i j => sch1 g a i j (q (i + j * nx))) o b p
    OK P w Sol ∧ Paired P w Sol (fun c => dx (c % nx) * dy (c / nx)) (fun _ side a i _ => if side < 2 then mu a * dy i else eta a * dx i) m ∧
      MoreTotal P Sol Sol1 fun g c => sig1 g c - sig g c := by
  have lin : ∀ g a i j, LinEq2 (sch g a i j) := fun g a i j => by
    obtain ⟨_, _, _, l1, l2, l3, _⟩ := C27_schemes_linear (fun x => x) (mu a) (eta a) 0 (dx i) (dy j) 0 (sig g (i + j * nx))
    rcases hsch g a i j with ⟨e, _⟩ | ⟨e, _⟩ <;> rw [e] <;> assumption
  refine ⟨C125_ok2 M hM sch lin w nx ny na up hN bc order hord _ _ hr fun g => sides_ok (hb g),
    ⟨fun g hg => WGReflect.reciprocal2 (sch g) w nx ny na up (bc g) order _ _ _ _ _ (fun a j => mu a * dy j)
      (fun a i => eta a * dx i) ?_, fun _ _ _ _ _ _ => rfl, hm, fun g _ => hb g⟩, ?_⟩
  · intro a ha i hi j hj
    have h1 := hmu a ha
    have h2 := heta a ha
    have h3 := hdx i hi
    have h4 := hdy j hj
    have h5 := hs g hg i hi j hj
    rw [Nat.add_mul_mod_self_right, Nat.mod_eq_of_lt hi, Nat.add_mul_div_right _ _ (by omega : 0 < nx),
      Nat.div_eq_of_lt hi, Nat.zero_add]
    rcases hsch g a i j with ⟨e, _⟩ | ⟨e, _⟩ <;> rw [e]
    · exact WGReflect.recip_dd2 _ _ _ _ _ h3.ne' h4.ne' (by positivity)
    · exact WGReflect.recip_sd2 _ _ _ _ _ h3.ne' h4.ne' (by positivity)
  · rintro g hg q o a b p ha ⟨V, H, v, hh, hc⟩
    refine ⟨V, H, v, hh, fun t ht r hr => ?_⟩
    have hi := WGReflect.posn_lt (o := o) (d := 0) ht
    have hj := WGReflect.posn_lt (o := o) (d := 1) hr
    have h1 := hmu a ha
    have h2 := heta a ha
    have h3 := hdx _ hi
    have h4 := hdy _ hj
    have h5 := hs g hg _ hi _ hj
    have h6 := hs1 g hg _ hi _ hj
    have e := hc t ht r hr
    have ep := congrArg Prod.fst e
    simp only at ep
    rw [← e]
    beta_reduce
    rw [← ep]
    rcases hsch g a (posn nx o 0 t) (posn ny o 1 r) with ⟨e0, e1⟩ | ⟨e0, e1⟩ <;> rw [e0, e1]
    · exact dd2_more (by positivity) (by positivity)
    · exact sd2_more (by positivity) (by positivity)

/-- 3-D, diamond differencing. -/
theorem C147_3D (M : MGSolve.Prob K) (hM : M.OK) (mu eta xi w dx dy dz : Nat → K) (sig sig1 : Nat → Nat → K) (m : K) (hm : m ≠ 0)
    (nx ny nz na : Nat) (hfit : nx ≤ 2 ^ 32) (hN : nx * ny * nz = M.x.N) (up : Bool) (bc : Nat → Nat → BC (Nat → Nat → K))
    (order : List Nat) (hord : order.Perm (List.range 8))
    (hmu : ∀ a < na, 0 < mu a) (heta : ∀ a < na, 0 < eta a) (hxi : ∀ a < na, 0 < xi a)
    (hdx : ∀ i < nx, 0 < dx i) (hdy : ∀ j < ny, 0 < dy j) (hdz : ∀ k < nz, 0 < dz k)
    (hs : ∀ g < M.x.mat.G, ∀ i < nx, ∀ j < ny, ∀ k < nz, 0 < sig g (i + j * nx + k * nx * ny))
    (hs1 : ∀ g < M.x.mat.G, ∀ i < nx, ∀ j < ny, ∀ k < nz, 0 < sig1 g (i + j * nx + k * nx * ny))
    (hr : ∀ g s, bc g s = .reflect ↔ bc 0 s = .reflect) (hb : ∀ g, ∀ s < 6, bc g s = .vacuum ∨ bc g s = .reflect) :
    let sch := fun g a i j k => dd3 (mu a) (eta a) (xi a) (dx i) (dy j) (dz k) (sig g (i + j * nx + k * nx * ny))
    let sch1 := fun g a i j k => dd3 (mu a) (eta a) (xi a) (dx i) (dy j) (dz k) (sig1 g (i + j * nx + k * nx * ny))
    let P := mg3 M sch w nx ny nz na up bc order (fun _ _ => m) (fun _ => [])
    let Sol := fun g q o a b p => Solves3 nx ny nz (fun i j k => sch g a i j k (q (i + j * nx + k * nx * ny))) o b p
    let Sol1 := fun g q o a b p => Solves3 nx ny nz (fun i j k => sch1 g a i j k (q (i + j * nx + k * nx * ny))) o b p
    OK P w Sol ∧ Paired P w Sol (fun c => dx (c % (nx * ny) % nx) * dy (c % (nx * ny) / nx) * dz (c / (nx * ny)))
      (fun _ side a i j => if side < 2 then mu a * (dy j * dz i) else if side < 4 then eta a * (dx j * dz i) else xi a * (dx j * dy i)) m ∧
      MoreTotal P Sol Sol1 fun g c => sig1 g c - sig g c := by
  intro sch sch1
  have lin : ∀ g a i j k, LinEq3 (sch g a i j k) := fun g a i j k =>
    (C27_schemes_linear (fun x : K => x) (mu a) (eta a) (xi a) (dx i) (dy j) (dz k) _).2.2.2.2.2.2
  refine ⟨C125_ok3 M hM sch lin w nx ny nz na up hfit hN bc order hord _ _ hr fun g => sides_ok (hb g),
    ⟨fun g hg => WGReflect.reciprocal3 (sch g) w nx ny nz na up (bc g) order _ _ _ _ _ (fun a k j => mu a * (dy j * dz k))
      (fun a k i => eta a * (dx i * dz k)) (fun a j i => xi a * (dx i * dy j)) ?_, fun _ _ _ _ _ _ => rfl, hm, fun g _ => hb g⟩, ?_⟩
  · intro a ha i hi j hj k hk
    have h1 := hmu a ha
    have h2 := heta a ha
    have h3 := hxi a ha
    have h4 := hdx i hi
    have h5 := hdy j hj
    have h6 := hdz k hk
    have h7 := hs g hg i hi j hj k hk
    have hc : i + j * nx < nx * ny := by
      have := Nat.mul_le_mul_right nx (Nat.succ_le_of_lt hj)
      rw [Nat.succ_mul, Nat.mul_comm ny] at this
      omega
    have e3 : k * nx * ny = k * (nx * ny) := Nat.mul_assoc _ _ _
    have e4 : (i + j * nx + k * nx * ny) % (nx * ny) = i + j * nx := by
      rw [e3, Nat.add_mul_mod_self_right, Nat.mod_eq_of_lt hc]
    have e5 : (i + j * nx + k * nx * ny) / (nx * ny) = k := by
      rw [e3, Nat.add_mul_div_right _ _ (by omega : 0 < nx * ny), Nat.div_eq_of_lt hc, Nat.zero_add]
    rw [e4, e5, Nat.add_mul_mod_self_right, Nat.mod_eq_of_lt hi, Nat.add_mul_div_right _ _ (by omega : 0 < nx),
      Nat.div_eq_of_lt hi, Nat.zero_add]
    exact WGReflect.recip_dd3 _ _ _ _ _ _ _ h4.ne' h5.ne' h6.ne' (by positivity)
  · rintro g hg q o a b p ha ⟨V, H, Z, v, hh, z, hc⟩
    refine ⟨V, H, Z, v, hh, z, fun t ht r hr u hu => ?_⟩
    have hi := WGReflect.posn_lt (o := o) (d := 0) ht
    have hj := WGReflect.posn_lt (o := o) (d := 1) hr
    have hk := WGReflect.posn_lt (o := o) (d := 2) hu
    have h1 := hmu a ha
    have h2 := heta a ha
    have h3 := hxi a ha
    have h4 := hdx _ hi
    have h5 := hdy _ hj
    have h6 := hdz _ hk
    have h7 := hs g hg _ hi _ hj _ hk
    have h8 := hs1 g hg _ hi _ hj _ hk
    have e := hc t ht r hr u hu
    have ep := congrArg Prod.fst e
    simp only at ep
    rw [← e]
    beta_reduce
    rw [← ep]
    exact dd3_more (by positivity) (by positivity)

end geom

/-! ## Concrete case -/

section cases
open Detran.WGReflect (dd half)

/-- The slab of C130 with the total cross section of group 1 doubled. -/
def eqsHot (g : Nat) (q : Nat → ℚ) (o _a : Nat) (b p : Nat → ℚ) : Prop :=
  Solves1 1 (fun i => dd1 1 1 (if g = 1 then 2 else 1) (q i)) o b p

theorem hot_more (M : MGSolve.Prob ℚ) : MoreTotal (slabM M) eqs eqsHot fun g _ => if g = 1 then 1 else 0 := by
  rintro g _ q o a b p _ ⟨V, v0, v1, hc⟩
  refine ⟨V, v0, v1, fun t ht => ?_⟩
  have e := hc t ht
  have ep := congrArg Prod.fst e
  simp only at ep
  rw [← e]
  beta_reduce
  rw [← ep]
  have e1 : ∀ q e, dd a (posn 1 o 0 t) q e = dd1 1 1 1 q e := fun q e => Prod.ext (by unfold dd dd1; ring) (by unfold dd dd1; ring)
  rw [e1]
  by_cases h : g = 1
  · rw [if_pos h, if_pos h]
    have := dd1_more (mu := (1 : ℚ)) (dx := 1) (s0 := 1) (s1 := 2) (q := q (posn 1 o 0 t)) (p := V t) (by norm_num) (by norm_num)
    rw [show (2 : ℚ) - 1 = 1 by norm_num] at this
    exact this
  · rw [if_neg h, if_neg h, zero_mul, sub_zero]

def hotPhi : Nat → Nat → ℚ := fun g _ => if g = 0 then 32 else 3
def hotPsi : Nat → Nat → Nat → Nat → ℚ := fun g o _ _ => if g = 0 then (if o = 0 then 224 / 5 else 96 / 5) else if o = 0 then 4 else 2
def hotB : Nat → Bd ℚ := fun g s o _ => if s = 0 then (if g = 0 then 192 / 5 else 4) else if o = 0 then (if g = 0 then 256 / 5 else 4) else 0
def coldPhi : Nat → Nat → ℚ := fun g _ => if g = 0 then 5 else 36
def coldPsi : Nat → Nat → Nat → Nat → ℚ := fun g o _ _ => if g = 0 then (if o = 0 then 7 else 3) else if o = 0 then 252 / 5 else 108 / 5
def coldB : Nat → Bd ℚ := fun g s o _ => if s = 0 then (if g = 0 then 6 else 216 / 5) else if o = 0 then (if g = 0 then 8 else 288 / 5) else 0

/-- Sides of the slab: reflecting on the left, nothing comes in from the right. -/
theorem slab_sides {b : Bd ℚ} (hb : b 1 1 0 = 0) (h0 : ∀ o o', b 0 o 0 = b 0 o' 0) :
    (∀ side < 2 * slabW.dim, slabW.bc side = .vacuum → ∀ o < 2 ^ slabW.dim, Enters side o → ∀ a < slabW.na, ∀ i j,
      WGReflect.InFace slabW side i j → slabW.get (b side o a) i j = 0) ∧
    (∀ side < 2 * slabW.dim, ∀ ps, slabW.bc side = .fixed ps → ∀ o < 2 ^ slabW.dim, ∀ io,
      (Sweep.incidentOctants slabW.dim side)[io]? = some o → ∀ a < slabW.na, ∀ i j, WGReflect.InFace slabW side i j →
      slabW.get (b side o a) i j = slabW.get (ps io a) i j) ∧
    ∀ side < 2 * slabW.dim, slabW.bc side = .reflect → ∀ o < 2 ^ slabW.dim, Enters side o → ∀ o',
      Mirror slabW.dim side o o' → ∀ a < slabW.na, ∀ i j, WGReflect.InFace slabW side i j →
      slabW.get (b side o a) i j - slabW.get (b side o' a) i j = 0 := by
  refine ⟨?_, ?_, ?_⟩
  · intro side hs hv o ho he a ha i j hi
    have ho : o < 2 := ho
    have hs : side < 2 := hs
    obtain rfl : a = 0 := Nat.lt_one_iff.1 ha
    interval_cases side
    · cases hv
    · interval_cases o
      · exact absurd he (by decide)
      · exact hb
  · intro side hs ps hv
    have hs : side < 2 := hs
    interval_cases side <;> cases hv
  · intro side hs hv o ho he o' hm a ha i j hi
    have hs : side < 2 := hs
    obtain rfl : a = 0 := Nat.lt_one_iff.1 ha
    interval_cases side
    · exact sub_eq_zero.2 (h0 o o')
    · cases hv

theorem hot_modes : Modes (slabM (toy 2 loopOps false 0 0)) (fun _ => 1 / 2) eqs eqsHot (toy 2 loopOps false 0 0).x.mat
    (toy 2 loopOps false 0 0).x.mmap (25 / 162) (5 / 48) hotPhi coldPhi hotPsi coldPsi := by
  refine ⟨fun _ _ => 0, hotB, coldB, fun g hg => ?_, fun g hg => ?_⟩
  · obtain ⟨s1, s2, s3⟩ := slab_sides (b := hotB g) rfl fun _ _ => rfl
    refine ⟨?_, ?_, s1, s2, s3⟩
    · intro o ho a ha
      have ho : o < 2 := ho
      have hg : g < 2 := hg
      obtain rfl : a = 0 := Nat.lt_one_iff.1 ha
      interval_cases g <;> interval_cases o
      · exact ⟨fun p => if p = 0 then 192 / 5 else 256 / 5, by decide +kernel, by decide +kernel, by decide +kernel⟩
      · exact ⟨fun p => if p = 0 then 0 else 192 / 5, by decide +kernel, by decide +kernel, by decide +kernel⟩
      · exact ⟨fun p => if p = 0 then 4 else 4, by decide +kernel, by decide +kernel, by decide +kernel⟩
      · exact ⟨fun p => if p = 0 then 0 else 4, by decide +kernel, by decide +kernel, by decide +kernel⟩
    · intro c hc
      have hg : g < 2 := hg
      obtain rfl : c = 0 := Nat.lt_one_iff.1 hc
      interval_cases g <;> decide +kernel
  · obtain ⟨s1, s2, s3⟩ := slab_sides (b := coldB g) rfl fun _ _ => rfl
    refine ⟨?_, ?_, s1, s2, s3⟩
    · intro o ho a ha
      have ho : o < 2 := ho
      have hg : g < 2 := hg
      obtain rfl : a = 0 := Nat.lt_one_iff.1 ha
      interval_cases g <;> interval_cases o
      · exact ⟨fun p => if p = 0 then 6 else 8, by decide +kernel, by decide +kernel, by decide +kernel⟩
      · exact ⟨fun p => if p = 0 then 0 else 6, by decide +kernel, by decide +kernel, by decide +kernel⟩
      · exact ⟨fun p => if p = 0 then 216 / 5 else 288 / 5, by decide +kernel, by decide +kernel, by decide +kernel⟩
      · exact ⟨fun p => if p = 0 then 0 else 216 / 5, by decide +kernel, by decide +kernel, by decide +kernel⟩
    · intro c hc
      have hg : g < 2 := hg
      obtain rfl : c = 0 := Nat.lt_one_iff.1 hc
      interval_cases g <;> decide +kernel

theorem loop_ok : (toy 2 loopOps false 0 0).OK := by
  refine toy_ok _ _ _ _ _ rfl ?_
  intro g gp m
  simp only [loopOps, Material.Mat.run, List.foldl_cons, List.foldl_nil, Material.Mat.step, Material.set3, Material.Mat.new]
  split_ifs <;> norm_num

/-- Doubling the collisions of group 1 takes the factor from 25/162 to 5/48, and the collisions gained, counted between opposite directions, say so;
    counted between equal directions they do not. -/
example : OK (slabM (toy 2 loopOps false 0 0)) (fun _ => 1 / 2) eqs ∧
    Paired (slabM (toy 2 loopOps false 0 0)) (fun _ => 1 / 2) eqs (fun _ => 1) (fun _ _ _ _ _ => 1) 1 ∧
    worth (slabM (toy 2 loopOps false 0 0)) (fun _ => 1) ((slabM (toy 2 loopOps false 0 0)).made hotPhi) coldPhi = 30 ∧
    collided (slabM (toy 2 loopOps false 0 0)) (fun _ => 1 / 2) (fun _ => 1) (fun g _ => if g = 1 then 1 else 0) hotPsi coldPsi = 468 / 5 ∧
    (1 / (25 / 162) - 1 / (5 / 48)) * 30 = (-(468 / 5) : ℚ) ∧
    ∑ o ∈ range 2, (1 / 2 : ℚ) * (hotPsi 1 o 0 0 * coldPsi 1 o 0 0) ≠ 468 / 5 :=
  ⟨slabM_ok _ loop_ok rfl, slabM_paired _, by decide +kernel, by decide +kernel, by norm_num, by decide +kernel⟩

example : (5 / 48 : ℚ) < 25 / 162 := by
  refine (C147_transport_worse (m := 1) (V := fun _ => 1) (slabM_ok _ loop_ok rfl) (slabM_paired _) rfl (hot_more _) (by norm_num) (by norm_num) hot_modes
    (fun _ _ => one_pos) one_pos (fun _ _ _ _ => by norm_num) ?_ ?_ ?_ ?_ ?_ (fun _ _ _ _ _ _ => le_rfl) (fun _ _ _ _ => le_rfl) (by decide +kernel)).2
    1 (by decide) 0 (by decide) 0 (by decide) 0 (by decide) (by norm_num) (by decide +kernel) (by decide +kernel)
  · intro g _ c _
    unfold hotPhi
    split <;> norm_num
  · intro g _ c _
    unfold coldPhi
    split <;> norm_num
  · intro g _ o _ a _ c _
    unfold hotPsi
    split_ifs <;> norm_num
  · intro g _ o _ a _ c _
    unfold coldPsi
    split_ifs <;> norm_num
  · intro g _ c _
    split <;> norm_num

end cases

end Detran.MGReflect
