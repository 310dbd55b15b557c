import Verif.Props.KeffFlux
import Verif.Props.KeffRough
import Verif.Props.GaussSeidel

/-!
# Power iteration over Gauss–Seidel with its own tolerances (C143)

The fluxes that `MGSolverGS` returns when it stops without the warning are off by a multiple of its tolerance (C129), so C143
applies to power iteration over it.
-/

namespace Detran.MGReflect

open Finset
open Detran.Sweep (St)
open Detran.EigenPI (emits makes Data Fissile Solver Mode Mixing fop Seeded PI Within Regular C143_returned)

variable {F K : Type} [Field K] [LinearOrder K] [IsStrictOrderedRing K]
variable {P : Prob F K} {w V : Nat → K} {Sol : Nat → (Nat → K) → Nat → Nat → (Nat → F) → (Nat → K) → Prop}
variable {sig r : Nat → Nat → K} {u : Nat → K} {m th rho : K} {fw : Nat → Nat → Nat → Nat → Nat → K}
variable {S : (Nat → Nat → K) → Nat → Nat → K}

/-- What power iteration gets from Gauss–Seidel: for every source and flux, the fluxes of a solve that ends without the warning, of a
    state in which fluxes on the sides and angular fluxes may be what earlier solves left. -/
def ByGS (P : Prob F K) (cut : Nat) (ds multiply : Bool) (tolI : K) (n : Nat) (tol : K)
    (solve : (Nat → Nat → K) → (Nat → Nat → K) → Nat → Nat → K) : Prop :=
  ∀ q phi, ∃ R k, Ready (P.sourced q) R ∧ R.phi = phi ∧ 0 < k ∧ ((P.sourced q).gs cut ds multiply tolI n tol k R).2 = false ∧
    solve q phi = ((P.sourced q).gs cut ds multiply tolI n tol k R).1.phi

theorem sourced_coupled {q : Nat → Nat → K} (h : Coupled (P.sourced q) w V sig r u m rho) (q' : Nat → Nat → K) :
    Coupled (P.sourced q') w V sig r u m rho :=
  ⟨h.weight, h.mtod, h.norm, h.disc, h.vol, h.tot, h.rnn, h.ratio, h.upos, h.row, h.rpos, h.less⟩

/-- Gauss–Seidel over all groups is within a multiple of its tolerance, for every number of within-group passes. -/
theorem C143_within [Archimedean K] (ok : OK P w Sol) (hC : Coupled (P.sourced fun _ _ => 0) w V sig r u m rho)
    (D : AllDissipate P Sol V sig fw) (hno : Open P) (hN : 0 < P.M.x.N) (hG0 : 0 < P.M.x.mat.G)
    (hG : P.M.x.mat.G < 2147483648) (hS : Exactly P w Sol S) : ∃ B > 0, ∀ (cut : Nat), cut < P.M.x.mat.G →
      ∀ ds multiply : Bool, (multiply = true ∨ cut = if P.M.x.adjoint then P.M.x.mat.G - 1 else 0) →
      (multiply = true ∨ ds = false ∧ 1 < P.M.x.mat.G) → ∀ (tolI : K) (n : Nat), 0 < n → ∀ tol > 0, ∀ solve,
      ByGS P cut ds multiply tolI n tol solve → Within P.M.x S (B * tol) solve := by
  have one : 0 < 1 - rho := by linarith [hC.less]
  have vs : ∀ g < P.M.x.mat.G, ∀ c < P.M.x.N, 0 < V c * sig g c := fun g hg c hc => mul_pos (hC.vol c hc) (hC.tot g hg c hc)
  obtain ⟨E, hE⟩ : ∃ E, E = ∑ g ∈ range P.M.x.mat.G, (∑ c ∈ range P.M.x.N, V c * sig g c) / u g ^ 2 := ⟨_, rfl⟩
  have t0 : ∀ g < P.M.x.mat.G, 0 ≤ (∑ c ∈ range P.M.x.N, V c * sig g c) / u g ^ 2 := fun g hg =>
    div_nonneg (sum_nonneg fun c hc => (vs g hg c (mem_range.1 hc)).le) (sq_nonneg _)
  have E0 : 0 ≤ E := by rw [hE]; exact sum_nonneg fun g hg => t0 g (mem_range.1 hg)
  have Eg : ∀ g < P.M.x.mat.G, ∑ c ∈ range P.M.x.N, V c * sig g c ≤ u g ^ 2 * E := by
    intro g hg
    have h1 := single_le_sum (f := fun g => (∑ c ∈ range P.M.x.N, V c * sig g c) / u g ^ 2)
      (fun g hg => t0 g (mem_range.1 hg)) (mem_range.2 hg)
    rw [← hE] at h1
    have h2 := hC.upos g hg
    rw [div_le_iff₀ (by positivity)] at h1
    linarith
  obtain ⟨T, hT⟩ : ∃ T, T = ∑ g ∈ range P.M.x.mat.G, ∑ c ∈ range P.M.x.N,
    rho ^ 2 * u g ^ 2 * E / ((1 - rho) ^ 2 * (V c * sig g c)) := ⟨_, rfl⟩
  have nn : ∀ g < P.M.x.mat.G, ∀ c < P.M.x.N, 0 ≤ rho ^ 2 * u g ^ 2 * E / ((1 - rho) ^ 2 * (V c * sig g c)) := fun g hg c hc => by
    have := vs g hg c hc
    positivity
  have T0 : 0 ≤ T := by
    rw [hT]
    exact sum_nonneg fun g hg => sum_nonneg fun c hc => nn g (mem_range.1 hg) c (mem_range.1 hc)
  have Tg : ∀ g < P.M.x.mat.G, ∀ c < P.M.x.N, rho ^ 2 * u g ^ 2 * E ≤ (1 - rho) ^ 2 * (V c * sig g c) * T := by
    intro g hg c hc
    have h1 := single_le_sum (f := fun c => rho ^ 2 * u g ^ 2 * E / ((1 - rho) ^ 2 * (V c * sig g c)))
      (fun c hc => nn g hg c (mem_range.1 hc)) (mem_range.2 hc)
    have h2 := single_le_sum (f := fun g => ∑ c ∈ range P.M.x.N, rho ^ 2 * u g ^ 2 * E / ((1 - rho) ^ 2 * (V c * sig g c)))
      (fun g hg => sum_nonneg fun c hc => nn g (mem_range.1 hg) c (mem_range.1 hc)) (mem_range.2 hg)
    rw [← hT] at h2
    have h3 := h1.trans h2
    have := vs g hg c hc
    rw [div_le_iff₀ (by positivity)] at h3
    linarith
  refine ⟨1 + T, by linarith, fun cut hcut ds multiply hall hit tolI n hn tol ht solve hB => ?_⟩
  intro s d phi _ _ _ g hg c hc
  obtain ⟨q, hq⟩ : ∃ q : Nat → Nat → K, q = fun g c => s * (d c * emits P.M.x g c) := ⟨_, rfl⟩
  rw [← hq]
  obtain ⟨R, k, hR, _, hk, hw, e⟩ := hB q phi
  rw [e]
  have acc := (C129_solve (P := P.sourced q) (sourced_ok ok q) (sourced_coupled hC q)
    (fw := fw) (fun g hg => ⟨(D g hg).pos, (D g hg).energy⟩) hno hN hG0 hG cut hcut ds multiply hall tolI n hn tol ht R hR (S q)
    (hS.flux q)).2 k hk hit hw (tol ^ 2 * E) (fun g hg => by
      have := mul_le_mul_of_nonneg_left (Eg g hg) (sq_nonneg tol)
      change tol ^ 2 * ∑ c ∈ range P.M.x.N, V c * sig g c ≤ _
      linarith) g hg
  have v0 := vs g hg c hc
  have cell : V c * sig g c * (((P.sourced q).gs cut ds multiply tolI n tol k R).1.phi g c - S q g c) ^ 2 ≤
      gErr (P.sourced q) V sig g (((P.sourced q).gs cut ds multiply tolI n tol k R).1.phi g) (S q g) :=
    single_le_sum (f := fun c => V c * sig g c * (((P.sourced q).gs cut ds multiply tolI n tol k R).1.phi g c - S q g c) ^ 2)
      (fun c hc => mul_nonneg (vs g hg c (mem_range.1 hc)).le (sq_nonneg _)) (mem_range.2 hc)
  generalize ((P.sourced q).gs cut ds multiply tolI n tol k R).1.phi g c - S q g c = y at *
  refine abs_le_of_sq_le_sq ?_ (by positivity)
  have b1 := (mul_le_mul_of_nonneg_left cell (sq_nonneg (1 - rho))).trans acc
  have b2 := mul_le_mul_of_nonneg_right (Tg g hg c hc) (sq_nonneg tol)
  have b3 : (1 - rho) ^ 2 * (V c * sig g c) * y ^ 2 ≤ (1 - rho) ^ 2 * (V c * sig g c) * (T * tol ^ 2) := by linarith
  have b4 := le_of_mul_le_mul_left b3 (by positivity)
  refine b4.trans ?_
  rw [mul_pow]
  refine mul_le_mul_of_nonneg_right ?_ (sq_nonneg _)
  nlinarith

/-- There are such solves, from any fluxes and any state of the sides and angular fluxes. -/
theorem C143_solves [Archimedean K] (ok : OK P w Sol) (hC : Coupled (P.sourced fun _ _ => 0) w V sig r u m rho)
    (D : AllDissipate P Sol V sig fw) (hno : Open P) (hN : 0 < P.M.x.N) (hG0 : 0 < P.M.x.mat.G)
    (hG : P.M.x.mat.G < 2147483648) (hS : Exactly P w Sol S) (cut : Nat) (hcut : cut < P.M.x.mat.G)
    (ds multiply : Bool) (hall : multiply = true ∨ cut = if P.M.x.adjoint then P.M.x.mat.G - 1 else 0) (tolI : K) (n : Nat)
    (hn : 0 < n) (tol : K) (ht : 0 < tol) (st : (Nat → Nat → K) → (Nat → Nat → K) → Nat → St F K)
    (hst : ∀ q phi, Ready (P.sourced q) ⟨st q phi, phi, true⟩) : ∃ solve, ByGS P cut ds multiply tolI n tol solve := by
  have h : ∀ q phi, ∃ k > 0, ((P.sourced q).gs cut ds multiply tolI n tol k ⟨st q phi, phi, true⟩).2 = false := by
    intro q phi
    obtain ⟨k0, hk⟩ := (C129_solve (P := P.sourced q) (sourced_ok ok q) (sourced_coupled hC q)
      (fw := fw) (fun g hg => ⟨(D g hg).pos, (D g hg).energy⟩) hno hN hG0 hG cut hcut ds multiply hall tolI n hn tol ht _
      (hst q phi) (S q) (hS.flux q)).1
    exact ⟨k0 + 1, by omega, hk _ (by omega)⟩
  choose k k0 hk using h
  exact ⟨fun q phi => ((P.sourced q).gs cut ds multiply tolI n tol (k q phi) ⟨st q phi, phi, true⟩).1.phi,
    fun q phi => ⟨_, k q phi, hst q phi, rfl, k0 q phi, hk q phi, rfl⟩⟩

/-- Power iteration over Gauss–Seidel between sides that do not reflect: with a small enough tolerance, and Gauss–Seidel's tolerance
    smaller by a fixed factor, it stops without a warning within a multiple of the tolerance of the multiplication factor. -/
theorem C143_gauss_seidel [Nonempty F] [Archimedean K] (ok : OK P w Sol) (hC : Coupled (P.sourced fun _ _ => 0) w V sig r u m rho)
    (D : AllDissipate P Sol V sig fw) (hno : Open P) (hN : 0 < P.M.x.N) (hG0 : 0 < P.M.x.mat.G)
    (hG : P.M.x.mat.G < 2147483648) (hS : Exactly P w Sol S) {th' : K} {u' : Nat → K} {m' : K}
    (hD : Damped (P.sourced fun _ _ => 0) w Sol sig u' m' th') (hb : Bare P) (hd : Data P.M.x) (hR : Reaches P Sol)
    (hs : Seeded P.M.x) {k : K} {phi : Nat → Nat → K} (hk : 0 < k) (he : Eigen P w Sol k phi)
    (hp : ∀ c, Fissile P.M.x c → 0 < P.dens phi c) : ∃ C > 0, ∃ B > 0, ∃ t0 > 0, ∀ tol, 0 < tol → tol ≤ t0 → ∃ n0,
      ∀ (cut : Nat), cut < P.M.x.mat.G →
      ∀ ds multiply : Bool, (multiply = true ∨ cut = if P.M.x.adjoint then P.M.x.mat.G - 1 else 0) →
      (multiply = true ∨ ds = false ∧ 1 < P.M.x.mat.G) → ∀ (tolI : K) (n : Nat), 0 < n → ∀ tolM, 0 < tolM → tolM ≤ tol / B →
      ∀ solve, ByGS P cut ds multiply tolI n tolM solve → ∀ phi0 N, n0 ≤ N → ∃ rep,
        (⟨P.M.x, solve, N, tol, 1⟩ : PI K).run phi0 = some rep ∧ rep.warned = false ∧ |rep.keff - k| ≤ C * tol := by
  obtain ⟨B, B0, hB⟩ := C143_within ok hC D hno hN hG0 hG hS
  have reg : Regular P.M.x S := ⟨C133_flux_solver ok hD hb hS, hd, C133_flux_mixing ok hD hb hS hd hC.weight hR, hs⟩
  have hm := C133_eigen_mode ok hD hb hS hk.ne' he
  obtain ⟨C, C0, t0, t00, h⟩ := C143_returned reg hm hk hp
  refine ⟨C, C0, B * C, by positivity, t0, t00, fun tol ht htol => ?_⟩
  obtain ⟨n0, hn⟩ := h tol ht htol
  refine ⟨n0, fun cut hcut ds multiply hall hit tolI n hn' tolM hM hle solve hg phi0 N hN' => hn solve ?_ phi0 N hN'⟩
  have hw := hB cut hcut ds multiply hall hit tolI n hn' tolM hM solve hg
  intro s d phi1 a1 a2 a3 g hg c hc
  refine (hw s d phi1 a1 a2 a3 g hg c hc).trans ?_
  rw [le_div_iff₀ (by positivity)] at hle ⊢
  linarith

/-! ## A case -/

section cases
open Detran.Boundary (BC)
open Detran.MGSolve (toy)

/-- The coupling of the fuel of `KeffFlux`, without its fission, is below three quarters of the totals. -/
theorem fuel_coupled : Coupled ((slabB (fun _ => .vacuum) 2 fuelOps).sourced fun _ _ => 0) (fun _ => 1 / 2) (fun _ => 1)
    (fun _ _ => 1) (fun g gp => if g = 0 then (if gp = 0 then 1 / 8 else 0) else if gp = 0 then 1 / 2 else 1 / 8) (fun _ => 1) 1
    (3 / 4) where
  weight := fun _ _ _ _ => by norm_num
  mtod := fun _ _ _ _ _ _ => rfl
  norm := fun _ _ => by
    change (1 : ℚ) * ∑ _o ∈ range 2, ∑ a ∈ range 1, (1 : ℚ) / 2 = 1
    norm_num
  disc := fun _ _ => rfl
  vol := fun _ _ => one_pos
  tot := fun _ _ _ _ => one_pos
  rnn := fun _ _ _ _ => by split_ifs <;> norm_num
  ratio := by
    have : ∀ g < 2, ∀ gp < 2, ∀ c < 1, couple (scatters (toy 2 fuelOps false 0 0)) g gp c ^ 2 ≤
        (if g = 0 then (if gp = 0 then 1 / 8 else 0) else if gp = 0 then 1 / 2 else 1 / 8) ^ 2 * (1 * 1 : ℚ) := by
      decide +kernel
    exact this
  upos := fun _ _ => one_pos
  row := by
    have : ∀ g < 2, ∑ gp ∈ range 2, (if g = 0 then (if gp = 0 then 1 / 8 else 0) else if gp = 0 then 1 / 2 else 1 / 8) * (1 : ℚ) ≤
        3 / 4 * 1 := by decide +kernel
    exact this
  rpos := by norm_num
  less := by norm_num

/-- Power iteration over Gauss–Seidel for it, with any tolerance and number of passes within the groups. -/
example : ∃ k > 0, (∃ phi, Eigen (slabB (fun _ => .vacuum) 2 fuelOps) (fun _ => 1 / 2) eqs k phi) ∧
    ∃ C > 0, ∃ B > 0, ∃ t0 > 0, ∀ tol : ℚ, 0 < tol → tol ≤ t0 → ∃ n0, ∀ (tolI : ℚ) (n : Nat), 0 < n →
    ∀ tolM, 0 < tolM → tolM ≤ tol / B → ∀ solve, ByGS (slabB (fun _ => .vacuum) 2 fuelOps) 0 false false tolI n tolM solve →
    ∀ phi0 N, n0 ≤ N → ∃ rep, (⟨(toy 2 fuelOps false 0 0).x, solve, N, tol, 1⟩ : PI ℚ).run phi0 = some rep ∧ rep.warned = false ∧
      |rep.keff - k| ≤ C * tol := by
  obtain ⟨S, hS⟩ := fuel_fluxes (fun _ => .vacuum) (fun _ _ => by simp)
  have ok := slabB_ok (fun _ => .vacuum) (fun _ _ => by simp) 2 fuelOps fuel_ok
  have hb : Bare (slabB (fun _ => .vacuum) 2 fuelOps) := fun _ _ _ _ => Or.inl rfl
  have hmix := C133_flux_mixing ok (fuel_damped _) hb hS fuel_data (fun _ _ _ _ => by norm_num) (fuel_reaches _)
  obtain ⟨k, hk⟩ : ∃ k, k = fop (toy 2 fuelOps false 0 0).x S (fun i => if i = 0 then 1 else 0) 0 := ⟨_, rfl⟩
  have k0 : 0 < k := by rw [hk]; exact hmix 0 fuel_fissile 0 fuel_fissile
  have hm : Mode (toy 2 fuelOps false 0 0).x S k (fun i => if i = 0 then 1 else 0) := by
    intro c hc
    have hc : c < 1 := hc
    obtain rfl : c = 0 := by omega
    rw [← hk]
    simp
  obtain ⟨e1, e2⟩ := C133_mode_eigen ok (fuel_damped _) hb hS k0.ne' hm
  refine ⟨k, k0, ⟨_, e1⟩, ?_⟩
  obtain ⟨C, C0, B, B0, t0, t00, h⟩ := C143_gauss_seidel ok fuel_coupled (slabB_dis _ 2 fuelOps) (fun _ _ _ _ => by
    change BC.vacuum ≠ BC.reflect
    simp) (by decide) (by decide) (by decide) hS (fuel_damped _) hb fuel_data (fuel_reaches _) fuel_seeded k0 e1 (by
    rintro c ⟨hc, -⟩
    have hc : c < 1 := hc
    obtain rfl : c = 0 := by omega
    rw [e2 0 hc, if_pos rfl]
    exact one_pos)
  refine ⟨C, C0, B, B0, t0, t00, fun tol ht htol => ?_⟩
  obtain ⟨n0, hn⟩ := h tol ht htol
  exact ⟨n0, fun tolI n hn' tolM hM hle solve hg phi0 N hN =>
    hn 0 (by decide) false false (Or.inr rfl) (Or.inr ⟨rfl, by decide⟩) tolI n hn' tolM hM hle solve hg phi0 N hN⟩

/-- And there are such solves. -/
example (tolI tol : ℚ) (ht : 0 < tol) (n : Nat) (hn : 0 < n) :
    ∃ solve, ByGS (slabB (fun _ => .vacuum) 2 fuelOps) 0 false false tolI n tol solve := by
  obtain ⟨S, hS⟩ := fuel_fluxes (fun _ => .vacuum) (fun _ _ => by simp)
  refine C143_solves (slabB_ok (fun _ => .vacuum) (fun _ _ => by simp) 2 fuelOps fuel_ok) fuel_coupled (slabB_dis _ 2 fuelOps)
    (fun _ _ _ _ => by
      change BC.vacuum ≠ BC.reflect
      simp) (by decide) (by decide) (by decide) hS 0 (by decide) false false (Or.inr rfl) tolI n hn tol ht
    (fun _ _ => start.S) fun q phi => ?_
  exact ⟨rfl, (start_ready (fun _ => .vacuum) (fun _ _ => by simp) 2 fuelOps).2⟩

end cases

end Detran.MGReflect
