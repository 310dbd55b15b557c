import Verif.Model.EigenOps
import Verif.Props.MGSolve
import Verif.Props.EigenPI

/-!
# C109, C110: what the Arnoldi-type and generalised Davidson eigenvalue solvers store

C109: `EigenArnoldi` and its energy-independent operator.  C110: `EigenGD` and its pair of energy-dependent operators.
-/

namespace Detran.EigenOps

open Detran.Material Detran.MGSolve Finset

variable {K : Type} [Field K] [LinearOrder K] [IsStrictOrderedRing K]

/-! ## Specification -/

/-- Neutrons produced by fission in a cell (importance of the fission spectrum in adjoint mode). -/
def prod (x : Src K) (phi : Nat → Nat → K) (c : Nat) : K :=
  ∑ g ∈ range x.mat.G, phi g c * (if x.adjoint then x.mat.chi g (x.mmap c) else x.mat.nuSigF g (x.mmap c))

/-- Emission into group `g` of a fission density (yield of the group in adjoint mode). -/
def emit (x : Src K) (d : Nat → K) (g c : Nat) : K :=
  d c * (if x.adjoint then x.mat.nuSigF g (x.mmap c) else x.mat.chi g (x.mmap c))

/-- The flux solves the multigroup transport problem with fission divided by `k` and no other source. -/
def Critical (P : Prob K) (k : K) (phi : Nat → Nat → K) : Prop :=
  ∀ g < P.x.mat.G, ∀ c < P.x.N, phi g c = P.T g (fun c =>
    (∑ gp ∈ range P.x.mat.G, phi gp c * xs P.x.mat.sigS P.x.adjoint g gp (P.x.mmap c))
      + 1 / k * emit P.x (prod P.x phi) g c) c

/-- A problem with nothing but its sweeps and scattering. -/
structure Plain (P : Prob K) : Prop where
  ok : P.OK
  hom : ∀ g (a : K) s c, P.T g (fun c => a * s c) c = a * P.T g s c
  explicit : P.implicit = false
  disc : ∀ g c, P.disc g c = 0

/-- The problem with a given fixed source. -/
def driven (P : Prob K) (q : Nat → Nat → K) : Prob K := { P with q := q, bnd := fun _ _ => 0 }

/-- The multigroup solver solves the problem whose fixed source it is given, from any starting flux. -/
def Solves (P : Prob K) (solve : (Nat → Nat → K) → (Nat → Nat → K) → Nat → Nat → K) : Prop :=
  ∀ q phi, (driven P q).Balanced (solve q phi)

/-- A fixed source determines the flux. -/
def Unique (P : Prob K) : Prop :=
  ∀ q phi psi, (driven P q).Balanced phi → (driven P q).Balanced psi →
    ∀ g < P.x.mat.G, ∀ c < P.x.N, phi g c = psi g c

theorem density_eq (x : Src K) (phi : Nat → Nat → K) (c : Nat) (hc : c < x.N) : x.density phi c = prod x phi c := by
  unfold Src.density prod
  rw [foldl_addCells, if_pos hc, sum_map_range, zero_add]

/-! ## C109 -/

/-- One moment per cell: copies between vector and density are exact. -/
theorem copy_one (a : Arn K) (h : a.moments = 1) (v old : Nat → K) :
    a.copy v old = some fun c => if c < a.x.N then v c else old c := by
  unfold Arn.copy Arn.rows
  rw [h, mul_one, if_neg (lt_irrefl _)]

/-- C109, the operator: the product with `v` is the fission density of the flux that `v`, taken as a fission
    density, would drive; the flux is left in the state. -/
theorem C109_operator (a : Arn K) (h : a.moments = 1) (dens : Nat → K) (phi : Nat → Nat → K) (v y : Nat → K) :
    ∃ phi' y', a.multiply dens phi v y = some (phi', y') ∧
      (∃ q, phi' = a.solve q phi ∧ ∀ g, ∀ c < a.x.N, q g c = emit a.x v g c) ∧
      ∀ c < a.x.N, y' c = prod a.x phi' c := by
  unfold Arn.multiply
  rw [copy_one a h]
  simp only [Option.bind_some]
  rw [copy_one a h]
  refine ⟨_, _, rfl, ⟨_, rfl, ?_⟩, ?_⟩
  · intro g c hc
    unfold Src.setupOuter emit
    simp only [if_pos hc, one_mul]
  · intro c hc
    beta_reduce
    rw [if_pos hc, density_eq _ _ _ hc]

/-- The sources of an outer iteration only matter in the cells of the mesh. -/
theorem balanced_congr (P : Prob K) (ok : P.OK) (q q' : Nat → Nat → K) 
    (h : ∀ g < P.x.mat.G, ∀ c < P.x.N, q g c = q' g c) (phi : Nat → Nat → K) (hb : (driven P q).Balanced phi) :
    (driven P q').Balanced phi := by
  intro g hg c hc
  have h1 := hb g hg c hc
  have h2 : P.T g ((driven P q).source phi g) c = P.T g ((driven P q').source phi g) c := by
    refine ok.loc g _ _ (fun c hc => ?_) c hc
    show q g c + _ + _ = q' g c + _ + _
    rw [h g hg c hc]
    rfl
  rw [h1]
  show P.T g _ c + P.disc g c + 0 = P.T g _ c + P.disc g c + 0
  rw [h2]

/-- The solver for a problem, with one moment per cell. -/
def arn (P : Prob K) (solve : (Nat → Nat → K) → (Nat → Nat → K) → Nat → Nat → K) (norm : (Nat → K) → K) : Arn K where
  x := P.x
  moments := 1
  solve := solve
  norm := norm

/-- C109: what `EigenArnoldi` stores solves the eigenvalue problem.  `(k, v)` is an exact eigenpair of the operator
    (whatever flux `phi0` and density `dens0` the product starts from), with `k` not zero. -/
theorem C109_flux_partial (P : Prob K) (hP : Plain P) 
    (solve : (Nat → Nat → K) → (Nat → Nat → K) → Nat → Nat → K) (norm : (Nat → K) → K) (hs : Solves P solve)
    (hu : Unique P) (k : K) (hk : k ≠ 0) (v : Nat → K) (dens0 dens1 : Nat → K) (phi0 phi1 phi' : Nat → Nat → K)
    (y y' : Nat → K) (hm : (arn P solve norm).multiply dens0 phi0 v y = some (phi', y')) (he : ∀ c < P.x.N, y' c = k * v c) :
    ∃ l, (arn P solve norm).finish k v dens1 phi1 = some l ∧ l.keff = k ∧ Critical P k l.phi ∧
      ∀ c < P.x.N, l.dens c = v c ∧ k * l.dens c = prod P.x l.phi c := by
  obtain ⟨phi2, y2, hm2, ⟨q2, hphi2, hq2⟩, hy2⟩ := C109_operator (arn P solve norm) rfl dens0 phi0 v y
  rw [hm] at hm2
  obtain ⟨rfl, rfl⟩ : phi' = phi2 ∧ y' = y2 := by simpa using hm2
  unfold Arn.finish
  rw [copy_one _ rfl]
  set d : Nat → K := fun c => if c < (arn P solve norm).x.N then v c else dens1 c with hd
  have hdc : ∀ c < P.x.N, d c = v c := fun c hc => if_pos hc
  have hset : ∀ g, ∀ c < P.x.N, P.x.setupOuter 1 d g c = emit P.x v g c := by
    intro g c hc
    unfold Src.setupOuter emit
    rw [hdc c hc, one_mul]
  have hq3 : ∀ g, ∀ c < P.x.N, q2 g c = emit P.x v g c := hq2
  have hphi3 : phi' = solve q2 phi0 := hphi2
  have hy3 : ∀ c < P.x.N, y' c = prod P.x phi' c := hy2
  have hsame : ∀ g < P.x.mat.G, ∀ c < P.x.N, solve (P.x.setupOuter 1 d) phi1 g c = phi' g c := by
    intro g hg c hc
    rw [hphi3]
    exact hu _ _ _ (hs _ _) (balanced_congr P hP.ok _ _ (fun g _ c hc => by rw [hset g c hc, hq3 g c hc]) _ (hs q2 phi0))
      g hg c hc
  have hprod : ∀ c < P.x.N, prod P.x (solve (P.x.setupOuter 1 d) phi1) c = k * v c := by
    intro c hc
    rw [← he c hc, hy3 c hc]
    unfold prod
    exact sum_congr rfl fun g hg => by rw [hsame g (mem_range.1 hg) c hc]
  refine ⟨_, rfl, rfl, ?_, ?_⟩
  · intro g hg c hc
    have hb := balanced_congr P hP.ok _ (emit P.x v) (fun g _ => hset g) _ (hs (P.x.setupOuter 1 d) phi1) g hg c hc
    refine hb.trans ?_
    show P.T g _ c + P.disc g c + 0 = P.T g _ c
    rw [hP.disc, add_zero, add_zero]
    refine hP.ok.loc g _ _ (fun c hc => ?_) c hc
    unfold Prob.source
    show emit P.x v g c + ∑ gp ∈ range P.x.mat.G, _ + (if P.implicit = true then _ else _)
      = _ + 1 / k * emit P.x (prod P.x (solve (P.x.setupOuter 1 d) phi1)) g c
    rw [hP.explicit]
    simp only [Bool.false_eq_true, if_false, add_zero]
    have : emit P.x v g c = 1 / k * emit P.x (prod P.x (solve (P.x.setupOuter 1 d) phi1)) g c := by
      unfold emit
      rw [hprod c hc]
      field_simp
    rw [this, add_comm]
    rfl
  · intro c hc
    refine ⟨hdc c hc, ?_⟩
    show k * d c = prod P.x (solve (P.x.setupOuter 1 d) phi1) c
    rw [hprod c hc, hdc c hc]

/-- C109, conversely: every solution of the eigenvalue problem is found among the operator's eigenpairs: its fission
    density is an eigenvector for `k`. -/
theorem C109_complete (P : Prob K) (hP : Plain P)
    (solve : (Nat → Nat → K) → (Nat → Nat → K) → Nat → Nat → K) (norm : (Nat → K) → K) (hs : Solves P solve)
    (hu : Unique P) (k : K) (hk : k ≠ 0) (phi : Nat → Nat → K) (hc : Critical P k phi) (dens0 : Nat → K)
    (phi0 : Nat → Nat → K) (y : Nat → K) :
    ∃ phi' y', (arn P solve norm).multiply dens0 phi0 (prod P.x phi) y = some (phi', y') ∧
      (∀ c < P.x.N, y' c = k * prod P.x phi c) ∧ ∀ g < P.x.mat.G, ∀ c < P.x.N, phi' g c = k * phi g c := by
  obtain ⟨phi2, y2, hm2, ⟨q2, hphi2, hq2⟩, hy2⟩ := C109_operator (arn P solve norm) rfl dens0 phi0 (prod P.x phi) y
  have hq3 : ∀ g, ∀ c < P.x.N, q2 g c = emit P.x (prod P.x phi) g c := hq2
  have hphi3 : phi2 = solve q2 phi0 := hphi2
  have hy3 : ∀ c < P.x.N, y2 c = prod P.x phi2 c := hy2
  have hb : (driven P q2).Balanced fun g c => k * phi g c := by
    intro g hg c hcc
    show k * phi g c = P.T g _ c + P.disc g c + 0
    rw [hP.disc, add_zero, add_zero, hc g hg c hcc, ← hP.hom]
    refine hP.ok.loc g _ _ (fun c hc' => ?_) c hcc
    unfold Prob.source
    show _ = q2 g c + ∑ gp ∈ range P.x.mat.G, _ + (if P.implicit = true then _ else _)
    rw [hP.explicit, hq3 g c hc']
    simp only [Bool.false_eq_true, if_false, add_zero]
    rw [mul_add, mul_sum, ← mul_assoc k (1 / k), mul_one_div_cancel hk, one_mul, add_comm]
    congr 1
    exact sum_congr rfl fun gp _ => by show k * _ = k * phi gp c * xs P.x.mat.sigS P.x.adjoint g gp (P.x.mmap c); ring
  have hsame : ∀ g < P.x.mat.G, ∀ c < P.x.N, phi2 g c = k * phi g c := by
    rw [hphi3]
    exact hu q2 _ _ (hs q2 phi0) hb
  refine ⟨phi2, y2, hm2, ?_, hsame⟩
  intro c hc'
  rw [hy3 c hc']
  unfold prod
  rw [mul_sum]
  exact sum_congr rfl fun g hg => by rw [hsame g (mem_range.1 hg) c hc']; ring

/-- C109: the initial guess is proportional to the summed production cross section. -/
theorem C109_guess (a : Arn K) (h : a.moments = 1) : ∃ v b, a.guess = some v ∧
    ∀ c < a.x.N, v c = b * ∑ g ∈ range a.x.mat.G, a.x.mat.nuSigF g (a.x.mmap c) := by
  unfold Arn.guess
  rw [copy_one a h]
  refine ⟨_, 1 / a.norm (fun c => if c < a.x.N then a.x.initDensity.getD c 0 else 0) *
      (1 / Detran.Util.normL1 ((List.range a.x.N).map fun c =>
        (List.range a.x.mat.G).foldl (fun s g => s + a.x.mat.nuSigF g (a.x.mmap c)) 0)), rfl, ?_⟩
  · intro c hc
    beta_reduce
    rw [if_pos hc, mul_assoc]
    congr 1
    unfold Src.initDensity Detran.Util.vecScale
    rw [List.map_map, List.getD_eq_getElem?_getD, List.getElem?_map, List.getElem?_range hc]
    simp only [Option.map_some, Option.getD_some, Function.comp]
    rw [Detran.Util.foldl_add_eq_sum, zero_add, sum_map_range, mul_comm]

/-- C109 fails with more than one moment per cell: every copy between vector and density is out of bounds. -/
theorem C109_overrun (a : Arn K) (hN : 0 < a.x.N) (hm : 1 < a.moments) : a.guess = none ∧
    (∀ dens phi v y, a.multiply dens phi v y = none) ∧ ∀ k v dens phi, a.finish k v dens phi = none := by
  have hc : ∀ v old, a.copy v old = none := fun v old => if_pos (by
    show a.x.N < a.x.N * a.moments
    exact lt_mul_of_one_lt_right hN hm)
  unfold Arn.guess Arn.multiply Arn.finish
  simp [hc]

/-! ## C110 -/

/-- The Krylov block is the whole range of groups. -/
def Full (G : Nat) (adjoint : Bool) (k : Int) : Prop := if adjoint then k = (G : Int) - 1 else k = 0

instance (G : Nat) (adjoint : Bool) (k : Int) : Decidable (Full G adjoint k) := by unfold Full; infer_instance

theorem full_nat {G : Nat} {adjoint : Bool} {k : Int} (hG : 0 < G) (h : Full G adjoint k) :
    ∃ n : Nat, k = n ∧ (if adjoint then n < G else n ≤ G) ∧ ∀ g < G, if adjoint then g ≤ n else n ≤ g := by
  unfold Full at h
  cases adjoint with
  | false => exact ⟨0, by simpa using h, by simp, by simp⟩
  | true =>
    simp only [if_true] at h ⊢
    exact ⟨G - 1, by omega, by omega, fun g hg => by omega⟩

omit [LinearOrder K] [IsStrictOrderedRing K] in
theorem pos0 (N g i : Nat) : (momentPos false 0 N g i).toNat = g * N + i := by
  unfold momentPos gIndex
  simp only [Bool.false_eq_true, if_false, sub_zero]
  norm_cast

theorem mem_all (G : Nat) (hG : G < 2147483648) (g : Nat) : g ∈ krylovGroups G false 0 ↔ g < G := by
  have := mem_krylov G hG false 0 (by simp) g
  simpa using this

theorem cell0 (P : Prob K) (hG : P.x.mat.G < 2147483648) (v : Nat → Nat → K) (g : Nat) (hg : g < P.x.mat.G) (i : Nat)
    (hi : i < P.x.N) :
    (krylovGroups P.x.mat.G false 0).foldl
      (fun y g => setBlock y (gIndex false 0 g * P.x.N).toNat P.x.N (v g)) (fun _ => 0) (g * P.x.N + i) = v g i := by
  have h := setBlock_fold P.x.N (gIndex false 0) v (krylovGroups P.x.mat.G false 0)
    (fun g _ => by unfold gIndex; simp) (fun g _ g' _ h => by unfold gIndex at h; simpa using h) (fun _ => 0) g
    ((mem_all _ hG g).2 hg) i hi
  rw [← h]
  congr 1

/-- The left-hand operator: sweeps of the fission sources of the vector's fluxes. -/
theorem lhs_eq (P : Prob K) (hP : Plain P) (hG : P.x.mat.G < 2147483648) (x : Nat → K) (phi : Nat → Nat → K) (g : Nat)
    (hg : g < P.x.mat.G) (c : Nat) (hc : c < P.x.N) :
    lhs P x (g * P.x.N + c) = P.T g (fun c => P.scale * emit P.x (prod P.x (fill P x phi)) g c) c := by
  unfold lhs sweepOp
  rw [cell0 P hG (fun g => P.sweep true false g (fun i => fission P x ((momentPos false 0 P.x.N g i).toNat)) fun _ => 0)
    g hg c hc]
  unfold Prob.sweep
  simp only [if_true, Bool.false_eq_true, if_false, add_zero, hP.disc]
  refine hP.ok.loc g _ _ (fun c hc => ?_) c hc
  rw [pos0]
  unfold fission
  rw [cell0 P hG _ g hg c hc, fissionTotal_eq P _ g _ c hc, zero_add]
  congr 1
  unfold emit prod fissionXs
  rw [sum_mul]
  refine sum_congr rfl fun gp hgp => ?_
  have hgp := mem_range.1 hgp
  rw [unpack_eq, if_pos ((mem_all _ hG gp).2 hgp)]
  simp only [pos0]
  have : fill P x phi gp c = x (gp * P.x.N + c) := if_pos ⟨hgp, hc⟩
  rw [this]
  cases P.x.adjoint <;> simp <;> ring

/-- The whole scattering source. -/
theorem total_full (P : Prob K) (hP : Plain P) (k : Nat) (hk : if P.x.adjoint then k < P.x.mat.G else k ≤ P.x.mat.G)
    (hall : ∀ g < P.x.mat.G, if P.x.adjoint then g ≤ k else k ≤ g) (phi : Nat → Nat → K) (g : Nat)
    (hg : g < P.x.mat.G) (c : Nat) (hc : c < P.x.N) :
    P.totalScatter phi g k c = ∑ gp ∈ range P.x.mat.G, phi gp c * xs P.x.mat.sigS P.x.adjoint g gp (P.x.mmap c) := by
  unfold Prob.totalScatter
  rw [hP.explicit]
  simp only [Bool.false_eq_true, if_false]
  unfold Src.totalGroup
  rw [foldl_addCells, if_pos hc, zero_add, sum_groups_incl]
  have hb := bounds_lt P.x g hg
  have hself := partner_bounds P.x g hg g (.inl rfl)
  rw [hP.ok.fin] at hb hself
  have h := sum_bounds_full P.x phi g hg hP.ok.nn c (hP.ok.map c hc) (min k (P.x.mat.upper g P.x.adjoint))
    (max k (P.x.mat.upper g P.x.adjoint))
  rw [hP.ok.fin] at h
  have h0 := hall 0 (by omega)
  have h1 := hall (P.x.mat.G - 1) (by omega)
  have hord : if P.x.adjoint then P.x.mat.upper g P.x.adjoint ≤ P.x.mat.lower g P.x.adjoint
      else P.x.mat.lower g P.x.adjoint ≤ P.x.mat.upper g P.x.adjoint := by
    cases ha : P.x.adjoint with
    | false =>
      have := lower_le_upper_fwd P.x g hg ha
      rw [hP.ok.fin] at this
      simpa using le_trans this.1 this.2
    | true =>
      have := upper_le_lower_adj P.x g hg ha
      rw [hP.ok.fin] at this
      simpa using le_trans this.1 this.2
  refine h ?_ ?_ ?_
  all_goals
    generalize P.x.mat.upper g P.x.adjoint = u at *
    generalize P.x.mat.lower g P.x.adjoint = l at *
    revert h0 h1 hb hself hk hord
    cases P.x.adjoint <;> simp <;> omega

/-- The transport operator over all groups: identity minus sweeps of the scattering source, whatever the state. -/
theorem mgOp_full (P : Prob K) (hP : Plain P) (hG : P.x.mat.G < 2147483648) (k : Int) (hk : Full P.x.mat.G P.x.adjoint k)
    (x : Nat → K) (phi0 phi : Nat → Nat → K) (g : Nat) (hg : g < P.x.mat.G) (c : Nat) (hc : c < P.x.N) :
    P.mgOp k phi0 x (g * P.x.N + c) = x (g * P.x.N + c) - P.T g (fun c =>
      ∑ gp ∈ range P.x.mat.G, fill P x phi gp c * xs P.x.mat.sigS P.x.adjoint g gp (P.x.mmap c)) c := by
  have hk' := hk
  obtain ⟨n, rfl, hn, hall⟩ := full_nat (by omega) hk
  obtain ⟨o1, o2, o3, _⟩ := C57_offsets P.x.mat.G hG P.x.adjoint n hn
  have hgi : ∀ g : Nat, gIndex P.x.adjoint n g = g := by
    intro g
    unfold gIndex
    unfold Full at hk'
    revert hk'
    cases P.x.adjoint <;> simp <;> omega
  have hpos : ∀ g i : Nat, (momentPos P.x.adjoint n P.x.N g i).toNat = g * P.x.N + i := by
    intro g i
    unfold momentPos
    rw [hgi]
    norm_cast
  have hmem : ∀ g < P.x.mat.G, g ∈ krylovGroups P.x.mat.G P.x.adjoint n := fun g hg =>
    (mem_krylov _ hG _ n hn g).2 ⟨hg, hall g hg⟩
  unfold Prob.mgOp
  set f := unpack P.x.adjoint n P.x.N (krylovGroups P.x.mat.G P.x.adjoint n) phi0 x with hf
  have e := setBlock_fold P.x.N (gIndex P.x.adjoint n) (fun g i =>
    x ((momentPos P.x.adjoint n P.x.N g i).toNat) - P.sweep false false g (fun _ => 0) (P.totalScatter f g n) i)
    (krylovGroups P.x.mat.G P.x.adjoint n) (fun g hg => (o2 g hg).1) o3 (fun _ => 0) g (hmem g hg) c hc
  rw [hpos] at e
  have hp : (gIndex P.x.adjoint n g * P.x.N + c).toNat = g * P.x.N + c := hpos g c
  rw [hp] at e
  refine e.trans ?_
  congr 1
  unfold Prob.sweep
  simp only [Bool.false_eq_true, if_false, add_zero, zero_add]
  refine hP.ok.loc g _ _ (fun c hc => ?_) c hc
  rw [total_full P hP n hn hall f g hg c hc]
  refine sum_congr rfl fun gp hgp => ?_
  have hgp := mem_range.1 hgp
  have h1 : fill P x phi gp c = x (gp * P.x.N + c) := if_pos ⟨hgp, hc⟩
  rw [h1, hf, unpack_eq, if_pos (hmem gp hgp)]
  beta_reduce
  rw [hpos]

/-- C110: with the whole range of groups in the Krylov block, `(lam, x)` is an eigenpair of the two operators exactly
    when the flux copied into the state solves the eigenvalue problem with `k = lam`, in both modes. -/
theorem C110_pair_partial (P : Prob K) (hP : Plain P) (hs : P.scale = 1) (hG : P.x.mat.G < 2147483648) (k : Int)
    (hk : Full P.x.mat.G P.x.adjoint k) (lam : K) (hl : lam ≠ 0) (x : Nat → K) (phi0 phi : Nat → Nat → K) :
    (∀ p < P.x.mat.G * P.x.N, lhs P x p = lam * P.mgOp k phi0 x p) ↔ Critical P lam (fill P x phi) := by
  have hadd : ∀ g c, P.T g (fun c =>
      (∑ gp ∈ range P.x.mat.G, fill P x phi gp c * xs P.x.mat.sigS P.x.adjoint g gp (P.x.mmap c))
        + 1 / lam * emit P.x (prod P.x (fill P x phi)) g c) c
      = P.T g (fun c =>
        ∑ gp ∈ range P.x.mat.G, fill P x phi gp c * xs P.x.mat.sigS P.x.adjoint g gp (P.x.mmap c)) c
        + 1 / lam * P.T g (emit P.x (prod P.x (fill P x phi)) g) c := by
    intro g c
    rw [hP.ok.add, hP.hom]
  have hone : ∀ g c, P.T g (fun c => P.scale * emit P.x (prod P.x (fill P x phi)) g c) c
      = P.T g (emit P.x (prod P.x (fill P x phi)) g) c := by
    intro g c
    rw [hP.hom, hs, one_mul]
  constructor
  · intro h g hg c hc
    have hp : g * P.x.N + c < P.x.mat.G * P.x.N := by nlinarith
    have h1 := h _ hp
    rw [lhs_eq P hP hG x phi g hg c hc, mgOp_full P hP hG k hk x phi0 phi g hg c hc, hone] at h1
    rw [hadd, h1]
    have : fill P x phi g c = x (g * P.x.N + c) := if_pos ⟨hg, hc⟩
    rw [this]
    field_simp
    ring
  · intro h p hp
    have hN : 0 < P.x.N := by
      rcases Nat.eq_zero_or_pos P.x.N with h0 | h0
      · rw [h0, mul_zero] at hp; omega
      · exact h0
    have hg : p / P.x.N < P.x.mat.G := Nat.div_lt_of_lt_mul (by rw [mul_comm]; exact hp)
    have hc : p % P.x.N < P.x.N := Nat.mod_lt _ hN
    have hpe : p = p / P.x.N * P.x.N + p % P.x.N := by rw [mul_comm]; exact (Nat.div_add_mod _ _).symm
    have h1 := h _ hg _ hc
    rw [hadd] at h1
    have : fill P x phi (p / P.x.N) (p % P.x.N) = x (p / P.x.N * P.x.N + p % P.x.N) := if_pos ⟨hg, hc⟩
    rw [this] at h1
    rw [hpe, lhs_eq P hP hG x phi _ hg _ hc, mgOp_full P hP hG k hk x phi0 phi _ hg _ hc, hone, h1]
    field_simp
    ring

omit [LinearOrder K] [IsStrictOrderedRing K] in
/-- Sizes of the two operators. -/
theorem sizes (G : Nat) (hG0 : 0 < G) (hG : G < 2147483648) (adjoint : Bool) (k : Nat)
    (hk : if adjoint then k < G else k ≤ G) (ms bs : Nat) (hm : 0 < ms) :
    (active G adjoint k = 0 ↔ adjoint = false ∧ k = G) ∧
    (opSize G adjoint k ms bs = lhsSize G ms bs ↔ Full G adjoint k) := by
  have h1 := (C57_offsets G hG adjoint k hk).1
  have h2 := (C57_offsets G hG false 0 (by simp)).1
  have h3 : active G false (0 : Nat) = G := by unfold active upper; simp
  unfold lhsSize opSize
  rw [h1, show (krylovGroups G false 0).length = G from h2.trans h3]
  unfold active upper Full
  constructor
  · cases adjoint <;> simp at hk ⊢ <;> omega
  · rw [Nat.mul_left_inj (by omega)]
    cases adjoint <;> simp at hk ⊢ <;> omega

/-- C110: without an override of the cutoff the solve is defined exactly when some material scatters
    into the whole range of groups: forward, group 0 must receive up-scatter (and, in adjoint mode, the cutoff of the
    material must be the last group). -/
theorem C110_setup (c : Cfg) (hG0 : 0 < c.G) (hG : c.G < 2147483648) (hm : c.multiply = false) (ho : c.over = none)
    (hmat : if c.adjoint then c.mat < c.G else c.mat ≤ c.G) (ms bs : Nat) (hms : 0 < ms) :
    setup c ms bs = if c.adjoint = false ∧ c.mat = c.G then .null
      else if Full c.G c.adjoint c.mat then .ok c.mat else .overrun := by
  have hc : c.cutoff = some (c.mat : Int) := by unfold Cfg.cutoff; rw [ho, hm]; simp
  obtain ⟨h1, h2⟩ := sizes c.G hG0 hG c.adjoint c.mat hmat ms bs hms
  unfold setup
  rw [hc]
  simp only [h1, ne_eq, h2]
  split
  · rfl
  · by_cases hf : Full c.G c.adjoint c.mat <;> simp [hf]

/-- C110, the way out: overriding the cutoff so that the block is the whole range always gives a defined solve,
    and no other override does. -/
theorem C110_override (c : Cfg) (hG0 : 0 < c.G) (hG : c.G < 2147483648) (hm : c.multiply = false) (k : Nat)
    (ho : c.over = some (k : Int)) (hk : if c.adjoint then c.mat ≤ k ∧ k < c.G else k ≤ c.mat)
    (hmat : c.mat ≤ c.G) (ms bs : Nat) (hms : 0 < ms) :
    (∃ n, setup c ms bs = .ok n) ↔ Full c.G c.adjoint k := by
  have hkG : if c.adjoint then k < c.G else k ≤ c.G := by
    revert hk
    cases c.adjoint <;> simp <;> omega
  have hsz : sz (k : Int) = k := by
    unfold sz
    have : k ≤ c.G := by
      revert hkG
      cases c.adjoint <;> simp <;> omega
    omega
  have hc : c.cutoff = some (k : Int) := by
    unfold Cfg.cutoff
    rw [ho, hm]
    simp only [hsz]
    revert hk hkG
    cases c.adjoint with
    | false => simp; omega
    | true => simp; omega
  obtain ⟨h1, h2⟩ := sizes c.G hG0 hG c.adjoint k hkG ms bs hms
  unfold setup
  rw [hc]
  simp only [h1, ne_eq, h2]
  by_cases hf : Full c.G c.adjoint k
  · have : ¬ (c.adjoint = false ∧ k = c.G) := by
      rintro ⟨h3, h4⟩
      unfold Full at hf
      rw [h3] at hf
      simp at hf
      omega
    simp [hf, this]
  · simp only [hf, not_false_eq_true, if_true, iff_false]
    rintro ⟨n, hn⟩
    split at hn <;> cases hn

/-- C110 as it should be: any eigenvalue problem can be given to the solver. -/
def C110Claim : Prop := ∀ (c : Cfg) (ms bs : Nat), 0 < c.G → c.G < 2147483648 → c.multiply = false → c.over = none →
  (if c.adjoint then c.mat < c.G else c.mat ≤ c.G) → 0 < ms → ∃ k, setup c ms bs = .ok k

/-- It fails for every problem without up-scatter (the cutoff is then the number of groups). -/
theorem C110_downscatter_null (G ms bs : Nat) (hG0 : 0 < G) (hG : G < 2147483648) (hms : 0 < ms) :
    setup ⟨G, G, none, false, false⟩ ms bs = .null := by
  rw [C110_setup ⟨G, G, none, false, false⟩ hG0 hG rfl rfl (by simp) ms bs hms]
  simp

theorem C110_claim_fails : ¬ C110Claim := by
  intro h
  obtain ⟨k, hk⟩ := h ⟨2, 2, none, false, false⟩ 1 0 (by decide) (by decide) rfl rfl (by decide) (by decide)
  rw [C110_downscatter_null 2 1 0 (by decide) (by decide) (by decide)] at hk
  cases hk

/-- C109 as it should be: what is stored is consistent: the fission density is the production of the
    stored flux. -/
def C109Claim : Prop :=
  ∀ (P : Prob ℚ) (solve : (Nat → Nat → ℚ) → (Nat → Nat → ℚ) → Nat → Nat → ℚ) (norm : (Nat → ℚ) → ℚ) (k : ℚ)
    (v dens0 dens1 : Nat → ℚ) (phi0 phi1 phi' : Nat → Nat → ℚ) (y y' : Nat → ℚ) (l : Left ℚ),
    Plain P → Solves P solve → Unique P → k ≠ 0 →
    (arn P solve norm).multiply dens0 phi0 v y = some (phi', y') → (∀ c < P.x.N, y' c = k * v c) →
    (arn P solve norm).finish k v dens1 phi1 = some l → ∀ c < P.x.N, l.dens c = prod P.x l.phi c

/-! ## A problem: two groups, up-scatter, fission, one cell; the eigenvalue is 7 -/

def ops : List (Op ℚ) :=
  [.setSigS 0 1 0 2, .setSigS 0 0 1 1, .setNu 0 0 1, .setNu 0 1 6, .setSigF 0 0 1, .setSigF 0 1 1, .setChi 0 0 1]

def demo : Prob ℚ := toy 2 ops false 0 0

theorem demo_plain : Plain demo where
  ok := by
    refine toy_ok _ _ _ _ _ rfl ?_
    intro g gp m
    simp only [ops, Mat.run, List.foldl_cons, List.foldl_nil, Mat.step, set3, Mat.new]
    split_ifs <;> norm_num
  hom := fun g a s c => mul_div_assoc _ _ _
  explicit := rfl
  disc := fun _ _ => rfl

/-- What balance means in the demonstration problem. -/
theorem demo_balanced (q phi : Nat → Nat → ℚ) : (driven demo q).Balanced phi ↔
    phi 0 0 = (q 0 0 + phi 1 0) / 2 ∧ phi 1 0 = (q 1 0 + phi 0 0 * 2) / 2 := by
  have e : ∀ g c, (driven demo q).source phi g c
      = q g c + (phi 0 c * xs demo.x.mat.sigS false g 0 0 + phi 1 c * xs demo.x.mat.sigS false g 1 0) := by
    intro g c
    unfold Prob.source
    show q g c + ∑ gp ∈ range 2, _ + (if false = true then _ else _) = _
    simp only [Bool.false_eq_true, if_false, add_zero]
    rw [sum_range_succ, sum_range_one]
    rfl
  have x00 : xs demo.x.mat.sigS false 0 0 0 = 0 := by decide +kernel
  have x01 : xs demo.x.mat.sigS false 0 1 0 = 1 := by decide +kernel
  have x10 : xs demo.x.mat.sigS false 1 0 0 = 2 := by decide +kernel
  have x11 : xs demo.x.mat.sigS false 1 1 0 = 0 := by decide +kernel
  have t : ∀ g c, (driven demo q).T g ((driven demo q).source phi g) c + (driven demo q).disc g c + (driven demo q).bnd g c
      = (driven demo q).source phi g c / 2 := by
    intro g c
    show (driven demo q).source phi g c / 2 + 0 + 0 = _
    rw [add_zero, add_zero]
  constructor
  · intro h
    have h0 := h 0 (show 0 < 2 by decide) 0 (show 0 < 1 by decide)
    have h1 := h 1 (show 1 < 2 by decide) 0 (show 0 < 1 by decide)
    rw [t, e, x00, x01] at h0
    rw [t, e, x10, x11] at h1
    exact ⟨by linarith, by linarith⟩
  · rintro ⟨h0, h1⟩ g hg c hc
    have hg : g < 2 := hg
    have hc : c < 1 := hc
    have hc0 : c = 0 := by omega
    subst hc0
    rw [t, e]
    have : g = 0 ∨ g = 1 := by omega
    rcases this with rfl | rfl
    · rw [x00, x01]; linarith
    · rw [x10, x11]; linarith

/-- The exact solver of the demonstration problem. -/
def demoSolve (q _phi : Nat → Nat → ℚ) (g c : Nat) : ℚ := q 0 c + q 1 c / 2 + if g = 1 then q 1 c / 2 else 0

theorem demo_solves : Solves demo demoSolve := by
  intro q phi
  rw [demo_balanced]
  unfold demoSolve
  norm_num
  constructor <;> ring

theorem demo_unique : Unique demo := by
  intro q phi psi h1 h2 g hg c hc
  rw [demo_balanced] at h1 h2
  have hg : g < 2 := hg
  have hc : c < 1 := hc
  have hc0 : c = 0 := by omega
  subst hc0
  have : g = 0 ∨ g = 1 := by omega
  rcases this with rfl | rfl <;> linarith [h1.1, h1.2, h2.1, h2.2]

/-- The hypotheses of `C109_flux_partial`: 7 is an eigenvalue of the operator. -/
theorem demo_eigen : ∃ phi' y', (arn demo demoSolve fun v => v 0).multiply (fun _ => 5) (fun _ _ => 3) (fun _ => 1)
    (fun _ => 0) = some (phi', y') ∧ ∀ c < demo.x.N, y' c = 7 * 1 := by
  refine ⟨_, _, rfl, ?_⟩
  decide +kernel

example : ∃ l, (arn demo demoSolve fun v => v 0).finish 7 (fun _ => 1) (fun _ => 0) (fun _ _ => 0) = some l ∧
    l.keff = 7 ∧ Critical demo 7 l.phi ∧ ∀ c < demo.x.N, l.dens c = 1 ∧ 7 * l.dens c = prod demo.x l.phi c := by
  obtain ⟨phi', y', h1, h2⟩ := demo_eigen
  exact C109_flux_partial demo demo_plain demoSolve _ demo_solves demo_unique 7 (by norm_num) _ _ _ _ _ _ _ _ h1 h2

theorem C109_claim_fails : ¬ C109Claim := by
  intro h
  obtain ⟨phi', y', h1, h2⟩ := demo_eigen
  have := h demo demoSolve (fun v => v 0) 7 _ _ (fun _ => 0) _ (fun _ _ => 0) _ _ _ _ demo_plain demo_solves demo_unique
    (by norm_num) h1 h2 rfl 0 (by decide)
  revert this
  decide +kernel

/-- `C109_complete` applies to the flux (1, 1). -/
theorem demo_critical : Critical demo 7 (fun _ _ => 1) := by
  unfold Critical
  decide +kernel

example : (arn demo demoSolve fun v => v 0).guess ≠ none ∧
    ({ arn demo demoSolve (fun v => v 0) with moments := 4 } : Arn ℚ).guess = none :=
  ⟨by decide +kernel, (C109_overrun { arn demo demoSolve (fun v => v 0) with moments := 4 } (by decide) (by decide)).1⟩

/-- `C110_pair_partial` on the demonstration problem: (1, 1) with 7 is an eigenpair of the two operators; its material
    cutoff is 0, so no override is needed. -/
example : (∀ p < 2, lhs demo (fun _ => 1) p = 7 * demo.mgOp 0 (fun _ _ => 3) (fun _ => 1) p) ∧
    demo.x.mat.upscatterCutoff false = 0 ∧ setup ⟨2, 0, none, false, false⟩ 1 0 = .ok 0 ∧
    ¬ ∀ p < 2, lhs demo (fun _ => 1) p = 6 * demo.mgOp 0 (fun _ _ => 3) (fun _ => 1) p := by
  decide +kernel

example : Critical demo 7 (fill demo (fun _ => 1) fun _ _ => 0) :=
  (C110_pair_partial demo demo_plain rfl (by decide) 0 rfl 7 (by norm_num) _ (fun _ _ => 3) _).1 (by decide +kernel)

/-- Three groups, up-scatter only into group 1: the two operators differ in size unless the cutoff is overridden. -/
example : setup ⟨3, 1, none, false, false⟩ 4 0 = .overrun ∧ setup ⟨3, 1, some 0, false, false⟩ 4 0 = .ok 0 ∧
    setup ⟨3, 1, some 2, false, false⟩ 4 0 = .error ∧ setup ⟨3, 1, none, false, true⟩ 4 0 = .overrun ∧
    setup ⟨3, 1, some 2, false, true⟩ 4 0 = .ok 2 ∧ setup ⟨3, 1, some 3, false, true⟩ 4 0 = .overrun := by
  decide +kernel

end Detran.EigenOps
