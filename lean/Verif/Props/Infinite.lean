import Verif.Lemmas.DiffPos
import Verif.Props.Recip
import Verif.Props.SweepFlat
import Mathlib.LinearAlgebra.Matrix.ToLin
import Mathlib.LinearAlgebra.FiniteDimensional.Basic

/-!
# Uniform problems: the flux of the infinite medium (C131)
-/

namespace Detran.MGReflect

open Detran.Sweep (St)
open Detran.Boundary (Bd BC Loc Enters Mirror)
open Detran.MGSolve (fissionXs toy toy_ok passes gsGroups)
open Detran.WGReflect (Sweeps Solution InFace Mismatch)
open Finset

section main
variable {F K : Type} [Field K] [LinearOrder K]
variable {P : Prob F K} {w V : Nat → K} {m : K}
  {Sol : Nat → (Nat → K) → Nat → Nat → (Nat → F) → (Nat → K) → Prop} {fw : Nat → Nat → Nat → Nat → Nat → K}

/-- Isotropic normalised moments, no discrete sources, and cell equations that keep flat fluxes: with the same angular
    flux `v` in every direction at every face, and a source of `v` times the total `sig`, it is `v` in every cell. -/
structure Uniform (P : Prob F K) (w : Nat → K) (Sol : Nat → (Nat → K) → Nat → Nat → (Nat → F) → (Nat → K) → Prop)
    (sig : Nat → Nat → K) (m : K) : Prop where
  mtod : ∀ g < P.M.x.mat.G, ∀ o < 2 ^ (P.W g).dim, ∀ a < (P.W g).na, (P.W g).mtod o a = m
  norm : ∀ g < P.M.x.mat.G, m * ∑ _o ∈ range (2 ^ (P.W g).dim), ∑ a ∈ range (P.W g).na, w a = 1
  disc : ∀ g < P.M.x.mat.G, (P.W g).disc = []
  flat : ∀ g < P.M.x.mat.G, ∀ v : K, ∃ b : F, (∀ i j, (P.W g).get b i j = v) ∧ ∀ q : Nat → K,
    (∀ c < P.M.x.N, q c = sig g c * v) → ∀ o < 2 ^ (P.W g).dim, ∀ a < (P.W g).na, Sol g q o a (fun _ => b) (fun _ => v)

/-- Every side reflects, or has the angular fluxes of the isotropic flux `v g` prescribed. -/
def Closed (P : Prob F K) (m : K) (v : Nat → K) : Prop :=
  ∀ g < P.M.x.mat.G, ∀ s < 2 * (P.W g).dim, (P.W g).bc s = .reflect ∨
    ∃ ps, (P.W g).bc s = .fixed ps ∧ ∀ io a i j, (P.W g).get (ps io a) i j = m * v g

/-- The medium balances at every cell: what collides in a group is what is given and what comes in. -/
def Medium (P : Prob F K) (sig : Nat → Nat → K) (v : Nat → K) : Prop :=
  ∀ g < P.M.x.mat.G, ∀ c < P.M.x.N, sig g c * v g = P.M.q g c + ∑ gp ∈ range P.M.x.mat.G, couple P.M g gp c * v gp

/-- Flat fluxes that balance at every cell are the fluxes of the problem, whatever the mesh, quadrature and scheme. -/
theorem C131_flat {sig : Nat → Nat → K} (hU : Uniform P w Sol sig m) (v : Nat → K) (hs : Closed P m v)
    (hv : Medium P sig v) : MGFlux P w Sol fun g _ => v g := by
  intro g hg
  obtain ⟨b, hb, hq⟩ := hU.flat g hg (m * v g)
  have key : ∀ o < 2 ^ (P.W g).dim, ∀ a < (P.W g).na, ∀ c < P.M.x.N,
      P.src (fun g _ => v g) g o a c = sig g c * (m * v g) := by
    intro o ho a ha c hc
    unfold Prob.src
    rw [hU.mtod g hg o ho a ha, hU.disc g hg, source_couple, ← hv g hg c hc, List.map_nil, List.sum_nil]
    ring
  refine ⟨fun _ _ _ => b, fun _ _ _ => m * v g, fun o ho a ha => hq _ (key o ho a ha) o ho a ha, ?_, ?_, ?_, ?_⟩
  · intro c hc
    rw [add_zero]
    calc v g = v g * (m * ∑ _o ∈ range (2 ^ (P.W g).dim), ∑ a ∈ range (P.W g).na, w a) := by rw [hU.norm g hg, mul_one]
      _ = _ := by
        rw [← mul_assoc, mul_sum]
        refine sum_congr rfl fun o _ => ?_
        rw [mul_sum]
        exact sum_congr rfl fun a _ => by ring
  · intro side h hv'
    rcases hs g hg side h with e | ⟨ps, e, _⟩ <;> rw [e] at hv' <;> cases hv'
  · intro side h ps hv' o ho io hio a ha i j hi
    rcases hs g hg side h with e | ⟨ps', e, k⟩ <;> rw [e] at hv'
    · cases hv'
    · cases hv'
      rw [hb, k]
  · intro side h _ o ho he o' hm a ha i j hi
    exact sub_self _

/-- So they are what the passes of Gauss–Seidel go to and what solves the equations, if coupling is weak. -/
theorem C131_passes {sig : Nat → Nat → K} (hU : Uniform P w Sol sig m) (v : Nat → K) (hs : Closed P m v)
    (hv : Medium P sig v) (hF : GSFinds P w Sol) :
    (∀ phi, MGFlux P w Sol phi → ∀ g < P.M.x.mat.G, ∀ c < P.M.x.N, phi g c = v g) ∧
    ∀ (l : List Nat), l.Nodup → (∀ g, g ∈ l ↔ g < P.M.x.mat.G) → ∀ R, Ready P R → ∀ (tolI : K) (n : Nat), 0 < n →
      (n = 1 ∨ Open P) → ∀ ε > 0, ∃ k0, ∀ k ≥ k0, ∀ g < P.M.x.mat.G, ∀ c < P.M.x.N,
        |((P.gsPass tolI n l)^[k] R).phi g c - v g| < ε := by
  obtain ⟨phi, _, hu, hp⟩ := hF
  have e := hu _ (C131_flat hU v hs hv)
  refine ⟨fun phi' h' g hg c hc => (hu phi' h' g hg c hc).trans (e g hg c hc).symm, fun l hd hl R hR tolI n hn ho ε hε => ?_⟩
  obtain ⟨k0, h⟩ := hp l hd hl R hR tolI n hn ho ε hε
  refine ⟨k0, fun k hk g hg c hc => ?_⟩
  rw [e g hg c hc]
  exact h k hk g hg c hc

/-- And what the multigroup Krylov solver returns. -/
theorem C131_krylov [IsStrictOrderedRing K] {sig r : Nat → Nat → K} {u : Nat → K} {rho : K} (ok : OK P w Sol)
    (hU : Uniform P w Sol sig m) (v : Nat → K) (hs : Closed P m v) (hv : Medium P sig v)
    (hC : Coupled P w V sig r u m rho) (D : AllDissipate P Sol V sig fw) {k : Nat}
    (hc : P.Cut k) (hb : P.M.NoBackward k) (wg : (Nat → Nat → K) → Nat → Nat → K)
    (hwg : ∀ phi, ∀ g < P.M.x.mat.G, g ∉ P.groups k → GroupFlux P w Sol (MGSolve.put phi g (wg phi g)) g)
    (hu : ∀ g < P.M.x.mat.G, g ∉ P.groups k → P.M.Uncoupled g) (tol : K) (phi : Nat → Nat → K)
    (S S' : Nat → St F K) (x : Nat → K) :
    let phi1 := passes wg (gsGroups P.M.x.mat.G P.M.x.adjoint k) phi
    (∀ g ∈ P.groups k, Mismatch (P.W g) ((P.rhs k tol phi1 S).1 g).bdy fun _ => 0) →
    SolvesSystem P k tol phi1 S S' x → ∀ g < P.M.x.mat.G, ∀ c < P.M.x.N, P.fluxes k phi1 x g c = v g :=
  C129_gmres ok hC D hc hb wg hwg hu tol phi S S' x _ (C131_flat hU v hs hv)

/-- A weakly coupled medium with the same properties everywhere and mirrors all around has flat fluxes that balance,
    one set of them. -/
theorem C131_medium [IsStrictOrderedRing K] {sig r : Nat → Nat → K} {u : Nat → K} {rho : K} (ok : OK P w Sol)
    (hU : Uniform P w Sol sig m) (hC : Coupled P w V sig r u m rho) (D : AllDissipate P Sol V sig fw)
    (hs : ∀ g < P.M.x.mat.G, ∀ s < 2 * (P.W g).dim, (P.W g).bc s = .reflect) (h0 : 0 < P.M.x.N)
    (hq : ∀ g < P.M.x.mat.G, ∀ c < P.M.x.N, P.M.q g c = P.M.q g 0)
    (hsig : ∀ g < P.M.x.mat.G, ∀ c < P.M.x.N, sig g c = sig g 0)
    (hcp : ∀ g < P.M.x.mat.G, ∀ gp < P.M.x.mat.G, ∀ c < P.M.x.N, couple P.M g gp c = couple P.M g gp 0) :
    ∃ v, Medium P sig v ∧ ∀ v', Medium P sig v' → ∀ g < P.M.x.mat.G, v' g = v g := by
  set G := P.M.x.mat.G with hG
  let A : Matrix (Fin G) (Fin G) K := fun g gp => (if g = gp then sig g 0 else 0) - couple P.M g gp 0
  have key : ∀ v : Nat → K, ∀ g : Fin G, A.mulVec (fun g => v g) g =
      sig g 0 * v g - ∑ gp ∈ range G, couple P.M g gp 0 * v gp := by
    intro v g
    simp only [A, Matrix.mulVec, dotProduct, sub_mul, sum_sub_distrib, ite_mul, zero_mul, sum_ite_eq, mem_univ, if_true]
    congr 1
    exact Fin.sum_univ_eq_sum_range (fun gp => couple P.M g gp 0 * v gp) G
  let P0 : Prob F K := ⟨{ P.M with q := fun _ _ => 0 }, P.W⟩
  have ok0 : OK P0 w Sol := ⟨⟨ok.src.fin, ok.src.nn, ok.src.map, ok.src.add, ok.src.loc⟩, ok.cells, ok.bsize, ok.sw, ok.np⟩
  have hU0 : Uniform P0 w Sol sig m := ⟨hU.mtod, hU.norm, hU.disc, hU.flat⟩
  have hC0 : Coupled P0 w V sig r u m rho := ⟨hC.weight, hC.mtod, hC.norm, hC.disc, hC.vol, hC.tot, hC.rnn, hC.ratio, hC.upos,
    hC.row, hC.rpos, hC.less⟩
  have zero : ∀ v : Nat → K, Medium P0 sig v → ∀ g < G, v g = 0 := fun v hv g hg =>
    C129_unique ok0 hC0 D _ _ (C131_flat hU0 v (fun g hg s h => Or.inl (hs g hg s h)) hv)
      (C131_flat hU0 (fun _ => 0) (fun g hg s h => Or.inl (hs g hg s h)) (fun g _ c _ => by simp [P0])) g hg 0 h0
  have inj : Function.Injective A.mulVecLin := by
    rw [← LinearMap.ker_eq_bot, LinearMap.ker_eq_bot']
    intro x hx
    set v : Nat → K := fun g => if h : g < G then x ⟨g, h⟩ else 0 with hv
    have ex : (fun g : Fin G => v g) = x := by
      funext g
      simp [hv]
    have hz := zero v (fun g hg c hc => by
      have e := congrFun hx ⟨g, hg⟩
      rw [Matrix.mulVecLin_apply, ← ex, key v ⟨g, hg⟩] at e
      change sig g c * v g = 0 + ∑ gp ∈ range G, couple P.M g gp c * v gp
      rw [hsig g hg c hc, sum_congr rfl fun gp hgp => by rw [hcp g hg gp (mem_range.1 hgp) c hc], zero_add]
      exact sub_eq_zero.1 e)
    funext g
    rw [← ex]
    exact hz g g.2
  have sur := LinearMap.injective_iff_surjective.1 inj
  obtain ⟨x, hx⟩ := sur fun g => P.M.q g 0
  set v : Nat → K := fun g => if h : g < G then x ⟨g, h⟩ else 0 with hv
  have ex : (fun g : Fin G => v g) = x := by
    funext g
    simp [hv]
  refine ⟨v, fun g hg c hc => ?_, fun v' hv' g hg => ?_⟩
  · have e := congrFun hx ⟨g, hg⟩
    rw [Matrix.mulVecLin_apply, ← ex, key v ⟨g, hg⟩] at e
    rw [hsig g hg c hc, hq g hg c hc, sum_congr rfl fun gp hgp => by rw [hcp g hg gp (mem_range.1 hgp) c hc]]
    exact sub_eq_iff_eq_add.1 e
  · have hd := zero (fun g => v' g - v g) (fun g hg c hc => by
      have e := congrFun hx ⟨g, hg⟩
      rw [Matrix.mulVecLin_apply, ← ex, key v ⟨g, hg⟩] at e
      have e' := hv' g hg c hc
      change sig g c * (v' g - v g) = 0 + ∑ gp ∈ range G, couple P.M g gp c * (v' gp - v gp)
      rw [hsig g hg c hc, hq g hg c hc, sum_congr rfl fun gp hgp => by rw [hcp g hg gp (mem_range.1 hgp) c hc]] at e'
      rw [hsig g hg c hc, sum_congr rfl fun gp hgp => by rw [hcp g hg gp (mem_range.1 hgp) c hc]]
      simp only [mul_sub, sum_sub_distrib]
      dsimp only at e
      linear_combination e' - e) g hg
    exact sub_eq_zero.1 hd

/-- One group: the source over what is absorbed. -/
theorem C131_one_group {sig : Nat → Nat → K} (hU : Uniform P w Sol sig m) (hG : P.M.x.mat.G = 1) (q s t : K)
    (hs : ∀ side < 2 * (P.W 0).dim, (P.W 0).bc side = .reflect) (hq : ∀ c < P.M.x.N, P.M.q 0 c = q)
    (hsig : ∀ c < P.M.x.N, sig 0 c = t) (hcp : ∀ c < P.M.x.N, couple P.M 0 0 c = s) (h : t - s ≠ 0) :
    MGFlux P w Sol fun _ _ => q / (t - s) := by
  refine C131_flat hU (fun _ => q / (t - s)) (fun g hg side h => ?_) fun g hg c hc => ?_
  · obtain rfl : g = 0 := by omega
    exact Or.inl (hs side h)
  · obtain rfl : g = 0 := by omega
    rw [hG, sum_range_one, hq c hc, hsig c hc, hcp c hc]
    field_simp
    ring

/-! ## Multiplication -/

/-- The medium reproduces the fluxes `v` with multiplication factor `k` at every cell. -/
def Breeds (P : Prob F K) (sig : Nat → Nat → K) (k : K) (v : Nat → K) : Prop :=
  ∀ g < P.M.x.mat.G, ∀ c < P.M.x.N, sig g c * v g =
    ∑ gp ∈ range P.M.x.mat.G, Material.xs P.M.x.mat.sigS P.M.x.adjoint g gp (P.M.x.mmap c) * v gp +
    1 / k * ∑ gp ∈ range P.M.x.mat.G, fissionXs P.M.x.mat P.M.x.adjoint g gp (P.M.x.mmap c) * v gp

/-- Flat fluxes that reproduce themselves in the medium do so in the discretised problem between mirrors. -/
theorem C131_kinf {sig : Nat → Nat → K} (hU : Uniform P w Sol sig m)
    (hs : ∀ g < P.M.x.mat.G, ∀ s < 2 * (P.W g).dim, (P.W g).bc s = .reflect) (k : K) (v : Nat → K)
    (hv : Breeds P sig k v) : Eigen P w Sol k fun g _ => v g := by
  refine C131_flat (P := P.fed k fun g _ => v g) ⟨hU.mtod, hU.norm, fun _ _ => rfl, hU.flat⟩ v
    (fun g hg s h => Or.inl (hs g hg s h)) fun g hg c hc => ?_
  rw [hv g hg c hc, add_comm]
  congr 1
  refine sum_congr rfl fun gp _ => ?_
  unfold couple Prob.fed
  simp

/-- Positive fluxes of the discretised problem have the multiplication factor of the medium, if the medium's adjoint
    equations have a positive solution. -/
theorem C131_keff [IsStrictOrderedRing K] {sig : Nat → Nat → K} (ok : OK P w Sol) (hU : Uniform P w Sol sig m)
    (hP : Paired P w Sol V fw m) (hs : ∀ g < P.M.x.mat.G, ∀ s < 2 * (P.W g).dim, (P.W g).bc s = .reflect)
    (k k' : K) (hk : k ≠ 0) (hk' : k' ≠ 0) (phi : Nat → Nat → K) (v' : Nat → K) (h : Eigen P w Sol k phi)
    (h' : Breeds (P.flip fun _ _ => 0) sig k' v') (hV : ∀ c < P.M.x.N, 0 < V c)
    (hp : ∀ g < P.M.x.mat.G, ∀ c < P.M.x.N, 0 < phi g c) (hp' : ∀ g < P.M.x.mat.G, 0 < v' g)
    (hx : ∀ g < P.M.x.mat.G, ∀ gp < P.M.x.mat.G, ∀ c < P.M.x.N,
      0 ≤ P.M.x.mat.chi g (P.M.x.mmap c) * P.M.x.mat.nuSigF gp (P.M.x.mmap c))
    (hf : ∃ g < P.M.x.mat.G, ∃ gp < P.M.x.mat.G, ∃ c < P.M.x.N,
      0 < P.M.x.mat.chi g (P.M.x.mmap c) * P.M.x.mat.nuSigF gp (P.M.x.mmap c)) : k = k' := by
  refine C130_keff ok hP (fun _ _ => 0) k k' hk hk' phi (fun g _ => v' g) h ?_ hV hp (fun g hg c _ => hp' g hg) hx hf
  exact C131_kinf (P := P.flip fun _ _ => 0) ⟨hU.mtod, hU.norm, fun _ _ => rfl, hU.flat⟩ hs k' v' h'

end main

/-! ## The three geometries -/

section geom
open Detran.Sweep (Solves1 Solves2 Solves3 dd1 sd1 sc1 sc2 dd2 sd2 dd3 C63_schemes_flat)
open Detran.WGReflect (posn_lt cell2_lt cell3_lt)
variable {K : Type} [Field K] [LinearOrder K] [IsStrictOrderedRing K]

/-- 1-D, any scheme in any cell, any mesh, any quadrature, whatever exponential step characteristics are given. -/
theorem C131_1D (M : MGSolve.Prob K) (ex : K → K) (mu w dx : Nat → K) (sig : Nat → Nat → K) (m : K) (na : Nat) (up : Bool)
    (bc : Nat → Nat → BC K) (order : List Nat) (sch : Nat → Nat → Nat → K → K → K × K)
    (hsch : ∀ g a i, sch g a i = dd1 (mu a) (dx i) (sig g i) ∨ sch g a i = sd1 (mu a) (dx i) (sig g i) ∨
      sch g a i = sc1 ex (mu a) (dx i) (sig g i))
    (hmu : ∀ a < na, 0 < mu a) (hdx : ∀ i < M.x.N, 0 < dx i) (hs : ∀ g < M.x.mat.G, ∀ i < M.x.N, 0 < sig g i)
    (hm : m * ∑ _o ∈ range 2, ∑ a ∈ range na, w a = 1) :
    Uniform (mg1 M sch w M.x.N na up bc order (fun _ _ => m) (fun _ => [])) w
      (fun g q o a b p => Solves1 M.x.N (fun i => sch g a i (q i)) o b p) sig m where
  mtod := fun _ _ _ _ _ _ => rfl
  norm := fun _ _ => hm
  disc := fun _ _ => rfl
  flat := by
    intro g hg v
    refine ⟨v, fun _ _ => rfl, fun q hq o _ a ha => ⟨fun _ => v, rfl, rfl, fun p hp => ?_⟩⟩
    have hi := posn_lt (o := o) (d := 0) hp
    set i := Sweep.posn M.x.N o 0 p
    have h1 := hmu a ha
    have h2 := hdx i hi
    have h3 := hs g hg i hi
    obtain ⟨k1, k2, k3, _⟩ := C63_schemes_flat ex (mu a) 1 0 (dx i) 1 0 (sig g i) v h1.ne' one_ne_zero h2.ne' one_ne_zero
    dsimp only
    rw [hq i hi]
    rcases hsch g a i with e | e | e <;> rw [e]
    · exact k1 (by positivity)
    · exact k2 (by positivity)
    · exact k3 h3.ne'

/-- 2-D, any scheme in any cell. -/
theorem C131_2D (M : MGSolve.Prob K) (ex : K → K) (mu eta w dx dy : Nat → K) (sig : Nat → Nat → K) (m : K) (nx ny na : Nat)
    (hN : nx * ny = M.x.N) (up : Bool) (bc : Nat → Nat → BC (Nat → K)) (order : List Nat)
    (sch : Nat → Nat → Nat → Nat → K → K × K → K × (K × K))
    (hsch : ∀ g a i j, sch g a i j = dd2 (mu a) (eta a) (dx i) (dy j) (sig g (i + j * nx)) ∨
      sch g a i j = sd2 (mu a) (eta a) (dx i) (dy j) (sig g (i + j * nx)) ∨
      sch g a i j = sc2 ex (mu a) (eta a) (dx i) (dy j) (sig g (i + j * nx)))
    (hmu : ∀ a < na, 0 < mu a) (heta : ∀ a < na, 0 < eta a) (hdx : ∀ i < nx, 0 < dx i) (hdy : ∀ j < ny, 0 < dy j)
    (hs : ∀ g < M.x.mat.G, ∀ c < M.x.N, 0 < sig g c) (hm : m * ∑ _o ∈ range 4, ∑ a ∈ range na, w a = 1) :
    Uniform (mg2 M sch w nx ny na up bc order (fun _ _ => m) (fun _ => [])) w
      (fun g q o a b p => Solves2 nx ny (fun i j => sch g a i j (q (i + j * nx))) o b p) sig m where
  mtod := fun _ _ _ _ _ _ => rfl
  norm := fun _ _ => hm
  disc := fun _ _ => rfl
  flat := by
    intro g hg v
    refine ⟨fun _ => v, fun _ _ => rfl, fun q hq o _ a ha => ⟨fun _ _ => v, fun _ _ => v, fun _ _ => ⟨rfl, rfl⟩,
      fun _ _ => ⟨rfl, rfl⟩, fun p hp r hr => ?_⟩⟩
    have hi := posn_lt (o := o) (d := 0) hp
    have hj := posn_lt (o := o) (d := 1) hr
    set i := Sweep.posn nx o 0 p
    set j := Sweep.posn ny o 1 r
    have hc : i + j * nx < M.x.N := by rw [← hN]; exact cell2_lt hi hj
    have h1 := hmu a ha
    have h2 := heta a ha
    have h3 := hdx i hi
    have h4 := hdy j hj
    have h5 := hs g hg _ hc
    obtain ⟨_, _, _, k1, k2, k3, _⟩ := C63_schemes_flat ex (mu a) (eta a) 0 (dx i) (dy j) 0 (sig g (i + j * nx)) v h1.ne'
      h2.ne' h3.ne' h4.ne'
    dsimp only
    rw [hq _ hc]
    rcases hsch g a i j with e | e | e <;> rw [e]
    · exact k1 (by positivity)
    · exact k2 (by positivity)
    · exact k3 h5.ne'

/-- 3-D with diamond differencing. -/
theorem C131_3D (M : MGSolve.Prob K) (mu eta xi w dx dy dz : Nat → K) (sig : Nat → Nat → K) (m : K) (nx ny nz na : Nat)
    (hN : nx * ny * nz = M.x.N) (up : Bool) (bc : Nat → Nat → BC (Nat → Nat → K)) (order : List Nat)
    (hmu : ∀ a < na, 0 < mu a) (heta : ∀ a < na, 0 < eta a) (hxi : ∀ a < na, 0 < xi a)
    (hdx : ∀ i < nx, 0 < dx i) (hdy : ∀ j < ny, 0 < dy j) (hdz : ∀ k < nz, 0 < dz k)
    (hs : ∀ g < M.x.mat.G, ∀ c < M.x.N, 0 < sig g c) (hm : m * ∑ _o ∈ range 8, ∑ a ∈ range na, w a = 1) :
    let sch := fun g a i j k => dd3 (mu a) (eta a) (xi a) (dx i) (dy j) (dz k) (sig g (i + j * nx + k * nx * ny))
    Uniform (mg3 M sch w nx ny nz na up bc order (fun _ _ => m) (fun _ => [])) w
      (fun g q o a b p => Solves3 nx ny nz (fun i j k => sch g a i j k (q (i + j * nx + k * nx * ny))) o b p) sig m := by
  intro sch
  refine ⟨fun _ _ _ _ _ _ => rfl, fun _ _ => hm, fun _ _ => rfl, fun g hg v => ?_⟩
  refine ⟨fun _ _ => v, fun _ _ => rfl, fun q hq o _ a ha => ⟨fun _ _ _ => v, fun _ _ _ => v, fun _ _ _ => v,
    fun _ _ _ _ => ⟨rfl, rfl⟩, fun _ _ _ _ => ⟨rfl, rfl⟩, fun _ _ _ _ => ⟨rfl, rfl⟩, fun p hp r hr t ht => ?_⟩⟩
  have hi := posn_lt (o := o) (d := 0) hp
  have hj := posn_lt (o := o) (d := 1) hr
  have hk := posn_lt (o := o) (d := 2) ht
  set i := Sweep.posn nx o 0 p
  set j := Sweep.posn ny o 1 r
  set k := Sweep.posn nz o 2 t
  have hc : i + j * nx + k * nx * ny < M.x.N := by rw [← hN]; exact cell3_lt hi hj hk
  have h1 := hmu a ha
  have h2 := heta a ha
  have h3 := hxi a ha
  have h4 := hdx i hi
  have h5 := hdy j hj
  have h6 := hdz k hk
  have h7 := hs g hg _ hc
  dsimp only
  rw [hq _ hc]
  exact (C63_schemes_flat (fun x : K => x) (mu a) (eta a) (xi a) (dx i) (dy j) (dz k) (sig g (i + j * nx + k * nx * ny)) v
    h1.ne' h2.ne' h4.ne' h5.ne').2.2.2.2.2.2 (by positivity)

end geom
end Detran.MGReflect

/-! ## Diffusion -/

namespace Detran.Diffusion

open Detran.Matrix Finset
variable {K : Type} [Field K] [LinearOrder K] [IsStrictOrderedRing K]

theorem solves_iff (S : FixedSrc K) (ok : S.OK) (srt : List (Trip K) → List (Trip K)) (hs : IsSort srt) (C : CSR K)
    (bs : List Bool) (hC : S.L.sys.make srt = .ok (some C, bs)) (x : Nat → K) :
    (∀ p < S.L.mat.G * S.L.M.size, C.multiply x p = S.rhs p) ↔
      ∀ g < S.L.mat.G, ∀ c < S.L.M.size, S.L.lhs x g c = S.rhs (c + g * S.L.M.size) := by
  obtain ⟨C', h1, _, _, h4⟩ := rows S.L ok.op srt hs
  rw [h1, Out.ok.injEq, Prod.mk.injEq, Option.some.injEq] at hC
  obtain ⟨rfl, _⟩ := hC
  have e1 : ∀ g < S.L.mat.G, ∀ c < S.L.M.size, C'.multiply x (c + g * S.L.M.size) = S.L.lhs x g c := fun g hg c hc => by
    have := h4 x g (by rw [ok.active, mem_range]; exact hg) c hc
    rwa [ok.pos] at this
  constructor
  · intro h g hg c hc
    rw [← e1 g hg c hc]
    refine h _ ?_
    calc c + g * S.L.M.size < (g + 1) * S.L.M.size := by rw [Nat.add_mul]; omega
      _ ≤ S.L.mat.G * S.L.M.size := Nat.mul_le_mul_right _ hg
  · intro h p hp
    have hn : 0 < S.L.M.size := Nat.pos_of_ne_zero fun h => by simp [h] at hp
    have hg : p / S.L.M.size < S.L.mat.G := (Nat.div_lt_iff_lt_mul hn).2 hp
    have := h _ hg _ (Nat.mod_lt p hn)
    rw [← e1 _ hg _ (Nat.mod_lt p hn), Nat.mod_add_div'] at this
    exact this

/-- The medium balances at every cell. -/
def FixedSrc.Medium (S : FixedSrc K) (v : Nat → K) : Prop := ∀ g < S.L.mat.G, ∀ c < S.L.M.size,
  S.L.mat.sigT g (S.L.mmap c) * v g = S.given g c + ∑ gp ∈ range S.L.mat.G, S.L.inXs g gp c * v gp

/-- Every side reflects, or has the partial current of the isotropic flux `v g` coming in. -/
def FixedSrc.Closed (S : FixedSrc K) (v : Nat → K) : Prop := ∀ leak < 2 * S.L.M.dim,
  S.L.al leak = 1 ∨ ∀ g i j, S.jin leak g i j = v g / 4

/-- Flat fluxes that balance at every cell solve the diffusion equations, whatever the mesh and the diffusion
    coefficients of the cells. -/
theorem C131_diffusion (S : FixedSrc K) (ok : S.OK) (hp : S.L.Pos) (srt : List (Trip K) → List (Trip K)) (hs : IsSort srt)
    (C : CSR K) (bs : List Bool) (hC : S.L.sys.make srt = .ok (some C, bs)) (v : Nat → K) (hc : S.Closed v)
    (hv : S.Medium v) (p : Nat) (hlt : p < S.L.mat.G * S.L.M.size) :
    C.multiply (fun p => v (p / S.L.M.size)) p = S.rhs p := by
  refine (solves_iff S ok srt hs C bs hC _).2 ?_ p hlt
  intro g hg c hcl
  have hn : 0 < S.L.M.size := by omega
  rw [lhs_flat S.L v _ (fun g _ c hc => by
      rw [ok.pos, Nat.add_mul_div_right _ _ hn, Nat.div_eq_of_lt hc, Nat.zero_add])
    (by rw [ok.active]; exact mem_range.2 hg) hcl, C101_source S ok.op.grid.dim_le hg hcl, hv g hg c hcl, ok.active]
  rw [show ∀ A B C D : K, A + (B + C - C) = B + D ↔ A = D from fun A B C D => by
    constructor <;> intro h <;> linear_combination h]
  have e3 : ∀ f : Nat → K, ∑ leak ∈ range (2 * S.L.M.dim), f leak
      = ∑ leak ∈ range 6, if leak < 2 * S.L.M.dim then f leak else 0 := by
    intro f
    rw [← Finset.sum_filter (s := range 6) (fun leak => leak < 2 * S.L.M.dim)]
    refine Finset.sum_congr ?_ fun _ _ => rfl
    have := ok.op.grid.dim_le
    ext l
    simp only [mem_range, mem_filter]
    omega
  rw [e3]
  refine sum_congr rfl fun leak hl => ?_
  have hl := mem_range.1 hl
  by_cases hb : S.L.M.onBoundary c leak = true
  · rw [if_pos hb, if_pos hb]
    have hw : S.L.M.width c (leak / 2) ≠ 0 := (hp.h _ _).ne'
    by_cases h2 : leak < 2 * S.L.M.dim
    · rw [if_pos h2]
      rcases ok.side leak h2 with ha | ⟨ha, hj⟩
      · rcases hc leak h2 with h1 | hj
        · rw [ha] at h1
          exact absurd h1 zero_ne_one
        · have e : S.jinAt g c leak = v g / 4 := hj _ _ _
          have hd : 4 * S.L.dc g c + S.L.M.width c (leak / 2) ≠ 0 := by
            have h1 : 0 < S.L.dc g c := hp.dc _ _
            have h2 : 0 < S.L.M.width c (leak / 2) := hp.h _ _
            positivity
          rw [e]
          simp only [Loss.dtilde, hb, dBoundary, ha, if_true]
          field_simp
          ring
      · have e : S.jinAt g c leak = 0 := hj _ _ _
        rw [e]
        simp [Loss.dtilde, hb, dBoundary, ha]
    · rw [if_neg h2]
      simp [Loss.dtilde, hb, dBoundary, ok.flat leak (by omega) hl]
  · rw [if_neg hb, if_neg hb, ite_self]

/-- And nothing else does, if the coupling is weak. -/
theorem C131_diffusion_only (S : FixedSrc K) (ok : S.OK) (hp : S.L.Pos) {u : Nat → K} (hW : S.L.Weak u)
    (srt : List (Trip K) → List (Trip K)) (hs : IsSort srt)
    (C : CSR K) (bs : List Bool) (hC : S.L.sys.make srt = .ok (some C, bs)) (v : Nat → K) (hc : S.Closed v)
    (hv : S.Medium v) (x : Nat → K) (hx : ∀ p < S.L.mat.G * S.L.M.size, C.multiply x p = S.rhs p) {g c : Nat}
    (hg : g < S.L.mat.G) (hcl : c < S.L.M.size) : x (c + g * S.L.M.size) = v g := by
  have h1 := (solves_iff S ok srt hs C bs hC x).1 hx
  have h2 := (solves_iff S ok srt hs C bs hC _).1 (C131_diffusion S ok hp srt hs C bs hC v hc hv)
  have hn : 0 < S.L.M.size := by omega
  have ha : ∀ {g}, g ∈ S.L.active → g < S.L.mat.G := fun h => by rw [ok.active] at h; exact mem_range.1 h
  have hg' : g ∈ S.L.active := by rw [ok.active]; exact mem_range.2 hg
  have k1 := lhs_mono S.L hp hW _ _ (fun g hg c hc => ((h1 g (ha hg) c hc).trans (h2 g (ha hg) c hc).symm).le) g hg' c hcl
  have k2 := lhs_mono S.L hp hW _ _ (fun g hg c hc => ((h2 g (ha hg) c hc).trans (h1 g (ha hg) c hc).symm).le) g hg' c hcl
  rw [ok.pos, Nat.add_mul_div_right _ _ hn, Nat.div_eq_of_lt hcl, Nat.zero_add] at k1 k2
  exact le_antisymm k1 k2


/-- A transport and a diffusion solve of the same medium agree: every flux of the transport equations and every solution
    of the diffusion equations, whatever the scheme, the quadrature, the meshes' widths and the diffusion coefficients. -/
theorem C131_agree {F : Type} {P : MGReflect.Prob F K} {w : Nat → K} {m : K} {sig : Nat → Nat → K}
    {Sol : Nat → (Nat → K) → Nat → Nat → (Nat → F) → (Nat → K) → Prop} (hU : MGReflect.Uniform P w Sol sig m)
    (hF : MGReflect.GSFinds P w Sol) (S : FixedSrc K) (ok : S.OK) (hp : S.L.Pos) {u : Nat → K} (hW : S.L.Weak u)
    (srt : List (Trip K) → List (Trip K)) (hs : IsSort srt) (C : CSR K) (bs : List Bool)
    (hC : S.L.sys.make srt = .ok (some C, bs)) (hG : S.L.mat.G = P.M.x.mat.G) (hN : S.L.M.size = P.M.x.N)
    (hsig : ∀ g < P.M.x.mat.G, ∀ c < P.M.x.N, S.L.mat.sigT g (S.L.mmap c) = sig g c)
    (hq : ∀ g < P.M.x.mat.G, ∀ c < P.M.x.N, S.given g c = P.M.q g c)
    (hx : ∀ g < P.M.x.mat.G, ∀ gp < P.M.x.mat.G, ∀ c < P.M.x.N, S.L.inXs g gp c = MGReflect.couple P.M g gp c)
    (v : Nat → K) (hv : MGReflect.Medium P sig v) (h1 : MGReflect.Closed P m v) (h2 : S.Closed v)
    (phi : Nat → Nat → K) (hphi : MGReflect.MGFlux P w Sol phi)
    (x : Nat → K) (hxs : ∀ p < S.L.mat.G * S.L.M.size, C.multiply x p = S.rhs p) {g c : Nat}
    (hg : g < P.M.x.mat.G) (hcl : c < P.M.x.N) : phi g c = x (c + g * S.L.M.size) := by
  rw [(MGReflect.C131_passes hU v h1 hv hF).1 phi hphi g hg c hcl]
  refine (C131_diffusion_only S ok hp hW srt hs C bs hC v h2 (fun g hg c hc => ?_) x hxs (by omega) (by omega)).symm
  rw [hG] at hg
  rw [hN] at hc
  rw [hsig g hg c hc, hq g hg c hc, hv g hg c hc, hG]
  congr 1
  exact sum_congr rfl fun gp hgp => by rw [hx g hg gp (mem_range.1 hgp) c hc]

/-! ## Cases -/

/-- Two materials that differ in their diffusion coefficients. -/
def flatMat : Material.Mat ℚ :=
  { Material.Mat.new 2 2 with
    sigT := fun _ _ => 1
    sigS := fun g gp _ => if g = gp then 1 / 2 else if g = 1 then 1 / 4 else 0
    diff := fun g m => if g = m then 1 else 1 / 2 }

/-- They alternate on a 3 by 2 mesh with unequal widths; it reflects on the west side. -/
def flatLoss : Loss ℚ where
  M := ⟨2, 3, 2, 1, fun _ i => 1 + i⟩
  mat := flatMat.finalize
  mmap := fun c => c % 2
  al := fun s => if s = 0 ∨ s = 4 ∨ s = 5 then 1 else 0
  adjoint := false
  cutoff := 0
  fission := false
  sf := 0
  keff := 1

/-- Two neutrons per second in each group, and currents of the isotropic fluxes 4 and 6 on the open sides. -/
def flatSrc : FixedSrc ℚ := ⟨flatLoss, [some fun _ _ => 2], none, fun s g _ _ => if s = 0 then 0 else if g = 0 then 1 else 3 / 2⟩

theorem flatSrc_ok : flatSrc.OK := by
  refine ⟨⟨⟨show 2 ≤ 3 by decide, ?_⟩, ⟨flatMat, rfl⟩, ?_, ?_, ?_⟩, ?_, ?_, ?_⟩
  · intro a h1 h2
    have : a = 2 := by
      have : 2 ≤ a := h1
      omega
    subst this
    rfl
  · intro g gp m
    show (0 : ℚ) ≤ if g = gp then 1 / 2 else if g = 1 then 1 / 4 else 0
    split_ifs <;> norm_num
  · intro c _
    exact Nat.mod_lt _ (by norm_num)
  · decide
  · decide
  · intro leak hl
    have hl' : leak < 4 := hl
    interval_cases leak
    · exact Or.inr ⟨by decide, fun _ _ _ => rfl⟩
    · exact Or.inl (by decide)
    · exact Or.inl (by decide)
    · exact Or.inl (by decide)
  · intro leak hl h6
    have hl' : 4 ≤ leak := hl
    interval_cases leak <;> decide

theorem flatSrc_pos : flatSrc.L.Pos := by
  refine ⟨fun _ i => ?_, fun g m => ?_, fun s => ?_⟩
  · show (0 : ℚ) < 1 + i
    positivity
  · show (0 : ℚ) < if g = m then 1 else 1 / 2
    split <;> norm_num
  · show (-1 : ℚ) ≤ (if s = 0 ∨ s = 4 ∨ s = 5 then 1 else 0) ∧ (if s = 0 ∨ s = 4 ∨ s = 5 then 1 else 0) ≤ (1 : ℚ)
    split <;> norm_num

theorem flatSrc_weak : flatSrc.L.Weak fun _ => 1 := by
  have ha : flatSrc.L.active = range 2 := flatSrc_ok.active
  refine ⟨fun _ _ => one_pos, ?_, ?_⟩ <;> rw [ha]
  · have : ∀ g ∈ range 2, ∀ gp ∈ range 2, ∀ c < 6, 0 ≤ flatSrc.L.inXs g gp c := by decide +kernel
    exact this
  · have : ∀ g ∈ range 2, ∀ c < 6, ∑ gp ∈ range 2, flatSrc.L.inXs g gp c * 1 < flatSrc.L.mat.sigT g (flatSrc.L.mmap c) * 1 := by
      decide +kernel
    exact this

/-- The fluxes 4 and 6, in every cell. -/
def flatV : Nat → ℚ := fun g => if g = 0 then 4 else 6

theorem flatSrc_medium : flatSrc.Medium flatV := by
  have : ∀ g < 2, ∀ c < 6, flatSrc.L.mat.sigT g (flatSrc.L.mmap c) * flatV g = flatSrc.given g c +
      ∑ gp ∈ range 2, flatSrc.L.inXs g gp c * flatV gp := by decide +kernel
  exact this

theorem flatSrc_closed : flatSrc.Closed flatV := by
  intro leak hl
  have hl' : leak < 4 := hl
  by_cases h : leak = 0
  · exact Or.inl (by subst h; decide)
  · refine Or.inr fun g i j => ?_
    show (if leak = 0 then 0 else if g = 0 then 1 else 3 / 2 : ℚ) = (if g = 0 then 4 else 6) / 4
    rw [if_neg h]
    split_ifs <;> norm_num

example (srt : List (Trip ℚ) → List (Trip ℚ)) (hs : IsSort srt) (C : CSR ℚ) (bs : List Bool)
    (hC : flatSrc.L.sys.make srt = .ok (some C, bs)) (x : Nat → ℚ)
    (hx : ∀ p < 12, C.multiply x p = flatSrc.rhs p) : x 4 = 4 ∧ x (4 + 6) = 6 :=
  ⟨C131_diffusion_only flatSrc flatSrc_ok flatSrc_pos flatSrc_weak srt hs C bs hC flatV flatSrc_closed flatSrc_medium x hx
    (g := 0) (c := 4) (by decide) (by decide),
   C131_diffusion_only flatSrc flatSrc_ok flatSrc_pos flatSrc_weak srt hs C bs hC flatV flatSrc_closed flatSrc_medium x hx
    (g := 1) (c := 4) (by decide) (by decide)⟩

end Detran.Diffusion

namespace Detran.MGReflect
open Finset
open Detran.Boundary (BC)
open Detran.MGSolve (toy toy_ok)

section cases
open Detran.Sweep (Solves1 dd1 sd1 C63_schemes_flat)
open Detran.WGReflect (dd)

theorem slabB_uniform (bc : Nat → BC ℚ) (G : Nat) (ops : List (Material.Op ℚ)) :
    Uniform (slabB bc G ops) (fun _ => 1 / 2) eqs (fun _ _ => 1) 1 where
  mtod := fun _ _ _ _ _ _ => rfl
  norm := fun _ _ => by
    change (1 : ℚ) * ∑ _o ∈ range 2, ∑ a ∈ range 1, (1 : ℚ) / 2 = 1
    norm_num
  disc := fun _ _ => rfl
  flat := by
    intro g hg v
    refine ⟨v, fun _ _ => rfl, fun q hq o _ a _ => ⟨fun _ => v, rfl, rfl, fun p hp => ?_⟩⟩
    have h := WGReflect.posn_lt (o := o) (d := 0) hp
    have h0 : Sweep.posn 1 o 0 p = 0 := by omega
    have hq0 : q 0 = 1 * v := hq 0 (by show 0 < 1; decide)
    rw [h0]
    dsimp only
    rw [hq0]
    exact Prod.ext (by unfold dd; ring) (by unfold dd; ring)

/-- The fluxes of the two coupled groups between mirrors. -/
def pairV : Nat → ℚ := fun g => if g = 0 then 20 / 11 else 16 / 11

theorem pair_medium (bc : Nat → BC ℚ) : Medium (slabB bc 2 pair) (fun _ _ => 1) pairV := by
  have : ∀ g < 2, ∀ c < 1, 1 * pairV g = 1 + ∑ gp ∈ range 2, couple (toy 2 pair false 0 0) g gp c * pairV gp := by
    decide +kernel
  exact this

/-- Gauss–Seidel goes to them between mirrors. -/
example : ∃ k0, ∀ k ≥ k0,
    |(((slabB (fun _ => .reflect) 2 pair).gsPass (1 / 10) 1 [0, 1])^[k] start).phi 0 0 - 20 / 11| < 1 / 1000000 := by
  obtain ⟨k0, hk⟩ := (C131_passes (slabB_uniform _ 2 pair) pairV (fun _ _ _ _ => Or.inl rfl) (pair_medium _)
    (gs_finds 0 (slabB_ok _ (fun _ _ => by simp) 2 pair pair_ok) (pair_coupled _) (slabB_dis _ 2 pair))).2 [0, 1]
    (by decide) (by
      intro g
      change g ∈ [0, 1] ↔ g < 2
      simp only [List.mem_cons, List.not_mem_nil, or_false]
      omega) start (start_ready _ (fun _ _ => by simp) _ _) (1 / 10) 1 one_pos (Or.inl rfl) (1 / 1000000) (by norm_num)
  exact ⟨k0, fun k h => hk k h 0 (by decide) 0 (by decide)⟩

/-- The first passes from zero, both sides reflecting. -/
example : ((((slabB (fun _ => .reflect) 2 pair).gsPass (1 / 10) 1 [0, 1])^[1] start).phi 0 0 <
    (((slabB (fun _ => .reflect) 2 pair).gsPass (1 / 10) 1 [0, 1])^[2] start).phi 0 0 : Bool) = true := by decide +kernel

/-- `k∞`: group 0 loses 1 and gives 1/4 to group 1, which makes 2 there. -/
example : Eigen (slabB (fun _ => .reflect) 2 loopOps) (fun _ => 1 / 2) eqs (1 / 2) fun g _ => if g = 0 then 4 else 1 := by
  refine C131_kinf (slabB_uniform _ 2 loopOps) (fun _ _ _ _ => rfl) (1 / 2) (fun g => if g = 0 then 4 else 1) ?_
  have : ∀ g < 2, ∀ c < 1, (1 : ℚ) * (if g = 0 then 4 else 1) =
      ∑ gp ∈ range 2, Material.xs (toy 2 loopOps false 0 0).x.mat.sigS false g gp 0 * (if gp = 0 then 4 else 1) +
      1 / (1 / 2) * ∑ gp ∈ range 2, MGSolve.fissionXs (toy 2 loopOps false 0 0).x.mat false g gp 0 * (if gp = 0 then 4 else 1) := by
    decide +kernel
  exact this

/-- Two cells of different widths, diamond and step differencing, a mirror on the left and the isotropic flux of each
    group given on the right: the balance of the medium is all. -/
example : MGFlux (mg1 (pairN 2) (fun _ _ i => if i = 0 then dd1 1 2 1 else sd1 1 3 1) (fun _ => (1 : ℚ) / 2) 2 1 true
    (fun g s => if s = 0 then .reflect else .fixed fun _ _ => pairV g) [0, 1] (fun _ _ => 1) (fun _ => [])) (fun _ => 1 / 2)
    (fun _ q o _ b p => Solves1 2 (fun i => (if i = 0 then dd1 1 2 (1 : ℚ) else sd1 1 3 1) (q i)) o b p)
    (fun g _ => pairV g) := by
  refine C131_flat (C131_1D (pairN 2) (fun x => x) (fun _ => 1) (fun _ => 1 / 2) (fun i => if i = 0 then 2 else 3) (fun _ _ => 1)
    1 1 true _ [0, 1] _ (fun g a i => by by_cases hi : i = 0 <;> simp [hi]) (fun _ _ => one_pos)
    (fun i _ => by split_ifs <;> norm_num) (fun _ _ _ _ => one_pos) (by decide +kernel)) pairV (fun g _ s hs => ?_) ?_
  · have hs : s < 2 := hs
    interval_cases s
    · exact Or.inl rfl
    · exact Or.inr ⟨fun _ _ => pairV g, rfl, fun _ _ _ _ => (one_mul _).symm⟩
  · have : ∀ g < 2, ∀ c < 2, 1 * pairV g = 1 + ∑ gp ∈ range 2, couple (pairN 2) g gp c * pairV gp := by
      decide +kernel
    exact this

/-- The diffusion problem of the two coupled groups between mirrors. -/
def pairSrc : Diffusion.FixedSrc ℚ where
  L := ⟨⟨1, 1, 1, 1, fun _ _ => 1⟩, ({ (Material.Mat.new 1 2).run pair with
    sigT := fun _ _ => 1, diff := fun g _ => 1 / (g + 1) } : Material.Mat ℚ).finalize, fun _ => 0, fun _ => 1, false, 0, false,
    0, 1⟩
  ext := [some fun _ _ => 1]
  fsrc := none
  jin := fun _ _ _ _ => 0

theorem pairSrc_ok : pairSrc.OK := by
  refine ⟨⟨⟨show 1 ≤ 3 by decide, ?_⟩, ⟨_, rfl⟩, ?_, ?_, ?_⟩, ?_, ?_, ?_⟩
  · intro a h1 h2
    have h1 : 1 ≤ a := h1
    interval_cases a <;> rfl
  · intro g gp m
    show (0 : ℚ) ≤ ((Material.Mat.new 1 2).run pair).sigS g gp m
    simp only [pair, Material.Mat.run, List.foldl_cons, List.foldl_nil, Material.Mat.step, Material.set3, Material.Mat.new]
    split_ifs <;> norm_num
  · intro c _
    show 0 < 1
    decide
  · decide
  · decide
  · exact fun leak _ => Or.inr ⟨rfl, fun _ _ _ => rfl⟩
  · exact fun _ _ _ => rfl

/-- Transport and diffusion find the same fluxes of the two groups. -/
example (phi : Nat → Nat → ℚ) (hphi : MGFlux (slabB (fun _ => .reflect) 2 pair) (fun _ => 1 / 2) eqs phi)
    (srt) (hs : Matrix.IsSort srt) (C : Matrix.CSR ℚ) (bs : List Bool)
    (hC : pairSrc.L.sys.make srt = .ok (some C, bs)) (x : Nat → ℚ) (hx : ∀ p < 2, C.multiply x p = pairSrc.rhs p) :
    phi 1 0 = x 1 := by
  have ha : pairSrc.L.active = range 2 := pairSrc_ok.active
  refine Diffusion.C131_agree (slabB_uniform _ 2 pair)
    (gs_finds 0 (slabB_ok _ (fun _ _ => by simp) 2 pair pair_ok) (pair_coupled _) (slabB_dis _ 2 pair)) pairSrc pairSrc_ok
    ⟨fun _ _ => one_pos, fun g _ => ?_, fun _ => ⟨by show (-1 : ℚ) ≤ 1; norm_num, le_rfl⟩⟩ (u := fun _ => 1)
    ⟨fun _ _ => one_pos, ?_, ?_⟩ srt hs C bs hC rfl rfl (fun _ _ _ _ => rfl) ?_ ?_ pairV (pair_medium _)
    (fun _ _ _ _ => Or.inl rfl) (fun _ _ => Or.inl rfl) phi hphi x hx (g := 1) (c := 0) (by decide) (by decide)
  · show (0 : ℚ) < 1 / (g + 1)
    positivity
  · rw [ha]
    have : ∀ g ∈ range 2, ∀ gp ∈ range 2, ∀ c < 1, 0 ≤ pairSrc.L.inXs g gp c := by decide +kernel
    exact this
  · rw [ha]
    have : ∀ g ∈ range 2, ∀ c < 1, ∑ gp ∈ range 2, pairSrc.L.inXs g gp c * 1 <
        pairSrc.L.mat.sigT g (pairSrc.L.mmap c) * 1 := by decide +kernel
    exact this
  · have : ∀ g < 2, ∀ c < 1, pairSrc.given g c = 1 := by decide +kernel
    exact this
  · have : ∀ g < 2, ∀ gp < 2, ∀ c < 1, pairSrc.L.inXs g gp c = couple (toy 2 pair false 0 0) g gp c := by decide +kernel
    exact this

end cases
end Detran.MGReflect
