import Verif.Props.CmfdUpdate
/-!
# C108: the eigenvalue problem by coarse mesh acceleration
-/

namespace Detran.CmfdUpd
open Matrix Diffusion Dense
open Finset (range mem_range)

variable {K : Type} [Field K] [LinearOrder K] [IsStrictOrderedRing K]

/-- The conditions on fission under which the coarse gain operator is right: one spectrum per coarse cell, fission in every
    group, neutrons made in the last group. -/
def Prob.Fissile (p : Prob K) (phi : Nat → Nat → K) : Prop :=
  ∀ c < p.M.size, (∃ X : Nat → K, ∀ i ∈ p.cells c, ∀ g < p.G, p.fm.chi (p.mat i) g = X g) ∧
    (∀ g < p.G, 0 < ∑ i ∈ p.cells c, p.fm.sf (p.mat i) g * phi g i * p.vol i) ∧
    ∑ i ∈ p.cells c, phi (p.G - 1) i * p.fm.nsf (p.mat i) (p.G - 1) * p.vol i ≠ 0

/-- A positive eigenvector and its eigenvalue: `F y = k M y`. -/
def PosPair (N : Nat) (F M : CSR K) (k : K) (y : Nat → K) : Prop :=
  (∀ r < N, 0 < y r) ∧ ∀ r < N, F.multiply y r = k * M.multiply y r

/-- An eigenvalue solver that works on `F`, `M`: from a positive guess it returns the positive pair; there is no second
    eigenvalue with a positive vector; a guess that solves the problem is returned up to a factor. -/
def EigExact (N : Nat) (eig : CSR K → CSR K → (Nat → K) → K × (Nat → K)) (F M : CSR K) : Prop :=
  ∀ x, (∀ r < N, 0 < x r) → PosPair N F M (eig F M x).1 (eig F M x).2 ∧
    (∀ k y, PosPair N F M k y → k = (eig F M x).1) ∧
    ∀ k, PosPair N F M k x → ∃ a, ∀ r < N, (eig F M x).2 r = a * x r

/-- What is used of a norm: it scales and is positive at positive vectors. -/
structure NormOK (N : Nat) (nrm : (Nat → K) → K) : Prop where
  scale : ∀ a, 0 < a → ∀ v w : Nat → K, (∀ r < N, w r = a * v r) → nrm w = a * nrm v
  pos : ∀ v : Nat → K, (∀ r < N, 0 < v r) → 0 < nrm v

theorem good_forEigen (p : Prob K) {phi} (hp : p.Good phi) : p.forEigen.Good phi where
  grid := hp.grid
  h := hp.h
  G := hp.G
  vol := hp.vol
  map := hp.map
  onto := hp.onto
  volume := hp.volume
  st := hp.st
  ss := hp.ss
  phi := hp.phi

theorem split_row {G N r : Nat} (hr : r < G * N) : ∃ g < G, ∃ c < N, r = c + g * N := by
  have hn : 0 < N := by
    by_contra h
    rw [Nat.eq_zero_of_not_pos h, Nat.mul_zero] at hr
    omega
  exact ⟨r / N, Nat.div_lt_of_lt_mul (by rw [Nat.mul_comm]; exact hr), r % N, Nat.mod_lt _ hn, by
    rw [Nat.mul_comm]; exact (Nat.mod_add_div r N).symm⟩

theorem eigen_G (p : Prob K) (phi) : (coarseMat (p.forEigen.input phi none) (p.forEigen.opt none) p.M.size).G = p.G := by
  show (p.forEigen.input phi none).cg.length = p.G
  rw [cg_ones, List.length_replicate]
  rfl

/-- The gain operator exists; its rows. -/
theorem gain_rows (p : Prob K) (phi) (srt : List (Trip K) → List (Trip K)) (hs : IsSort srt) :
    ∃ F bs, p.eigenGain phi srt = .ok (some F, bs) ∧ (∀ b ∈ bs, b = true) ∧ ∀ x, ∀ g < p.G, ∀ c < p.M.size,
      F.multiply x (c + g * p.M.size) = (Homog.coarse (p.forEigen.input phi none) (p.forEigen.opt none)).chi c g *
        ∑ gp ∈ range p.G, (Homog.coarse (p.forEigen.input phi none) (p.forEigen.opt none)).nsf c gp
          * x (c + gp * p.M.size) := by
  obtain ⟨F, h1, _, _, h2⟩ := C51_rows (coarseMat (p.forEigen.input phi none) (p.forEigen.opt none) p.M.size)
    (fun c => c) p.M.size false srt hs
  refine ⟨F, _, h1, by simp, fun x g hg c hc => ?_⟩
  have := h2 x g (by rw [eigen_G]; exact hg) c hc
  rw [this, eigen_G]
  simp only [Bool.false_eq_true, if_false, coarseMat_nsf]
  rfl

theorem gain_coarsen (p : Prob K) {phi} (hp : p.Good phi) {g c : Nat} (hc : c < p.M.size) :
    (Homog.coarse (p.forEigen.input phi none) (p.forEigen.opt none)).chi c g *
        ∑ gp ∈ range p.G, (Homog.coarse (p.forEigen.input phi none) (p.forEigen.opt none)).nsf c gp
          * p.coarsen phi (c + gp * p.M.size) = p.forEigen.coarseFission phi none g c / p.M.volume c := by
  unfold Prob.coarseFission
  rw [mul_div_assoc, Finset.sum_div]
  congr 1
  refine Finset.sum_congr rfl fun gp hgp => ?_
  have hgp' := mem_range.1 hgp
  have h1 := coarsen_eq p hp.map phi hgp' hc
  have h2 := flux_one p.forEigen phi none (g := gp) (c := c) hgp'
  rw [h1, mul_div_assoc]
  congr 2
  exact h2.symm

/-- The stored correction factors do not change the operator: first update, relaxation one, or factors that have
    settled. -/
def Prob.Settled (p : Prob K) (phi : Nat → Nat → K) (J : Nat → Nat → Nat → Nat → Nat → K)
    (fix : Nat → Nat → Nat → Bool) (first : Bool) (relax : K) (old : Nat → Nat → Nat → K) : Prop :=
  first = true ∨ relax = 1 ∨ ∀ g < p.G, ∀ c < p.M.size, ∀ leak < 2 * p.M.dim,
    old g c leak = ((p.eigenLoss phi J fix first relax old).pair g c leak).2

/-- The loss operator exists; at the restricted flux it gives the net leakage and removal of the fine problem. -/
theorem loss_coarsen (p : Prob K) {phi} (hp : p.Good phi) (J) (fix) (first relax old)
    (ho : p.Settled phi J fix first relax old) (srt : List (Trip K) → List (Trip K)) (hs : IsSort srt) :
    ∃ M bs, (p.eigenLoss phi J fix first relax old).sys.make srt = .ok (some M, bs) ∧ (∀ b ∈ bs, b = true) ∧
      ∀ g < p.G, ∀ c < p.M.size, M.multiply (p.coarsen phi) (c + g * p.M.size) =
        (p.leak J g c + ∑ i ∈ p.cells c, (p.fm.st (p.mat i) g * phi g i
          - ∑ gp ∈ range p.G, p.fm.ss (p.mat i) g gp * phi gp i) * p.vol i) / p.M.volume c := by
  have hq := good_forEigen p hp
  have f := cmfd_full p.forEigen hq none J fix 1
  have nz := cmfd_nz p.forEigen hq none J fix 1
  have hG : (p.eigenLoss phi J fix first relax old).L.mat.G = p.G := eigen_G p phi
  have f' : (p.eigenLoss phi J fix first relax old).Full := ⟨f.1, f.2, f.3, f.4⟩
  have nz' : (p.eigenLoss phi J fix first relax old).NZ := ⟨nz.1, nz.2, nz.3⟩
  obtain ⟨M, h1, _, _⟩ := cmfd_rows (p.eigenLoss phi J fix first relax old) f' srt hs
  refine ⟨M, _, h1, by simp, fun g hg c hc => ?_⟩
  have hx : ∀ g < (p.eigenLoss phi J fix first relax old).L.mat.G,
      ∀ c < (p.eigenLoss phi J fix first relax old).L.M.size,
        p.coarsen phi (c + g * (p.eigenLoss phi J fix first relax old).L.M.size)
          = (p.eigenLoss phi J fix first relax old).phi g c := by
    intro g hg c hc
    rw [hG] at hg
    exact coarsen_phi p.forEigen hq none hg hc
  have e : M.multiply (p.coarsen phi) (c + g * p.M.size) =
      (∑ leak ∈ range (2 * p.M.dim), (p.forEigen.cmfd phi none J fix 1).out g c leak) / p.M.volume c
        + (p.forEigen.cmfd phi none J fix 1).L.local (p.forEigen.coarsen phi) g c := by
    rcases ho with h | h | h
    · exact C52_balance _ f' nz' (by show (if first then (1 : K) else relax) = 1; rw [h]; rfl) srt hs M _ h1 _ hx g
        (by rw [hG]; exact hg) c hc
    · exact C52_balance _ f' nz' (by show (if first then (1 : K) else relax) = 1; rw [h, ite_self]) srt hs M _ h1 _ hx g
        (by rw [hG]; exact hg) c hc
    · exact C52_balance_converged _ f' nz' (by rw [hG]; exact h) srt hs M _ h1 _ hx g (by rw [hG]; exact hg) c hc
  have e1 := leak_out p.forEigen hq none J fix 1 g c
  have e2 := local_eq p.forEigen hq rfl none J fix 1 hg hc
  have e1' : ∑ leak ∈ range (2 * p.M.dim), (p.forEigen.cmfd phi none J fix 1).out g c leak = p.leak J g c := e1
  rw [e, e1', e2, add_div]
  congr 2
  exact sub_zero _

/-- **C108 (coarse eigenpair), partial.** A flux that satisfies the balance with fission divided by `k` in every coarse
    cell gives, restricted, an eigenvector of the coarse problem with eigenvalue `k`.  Missing: problems where some group
    has no fission, where one coarse cell has several spectra (`C108_claim_fails`), where relaxed factors have not
    settled, and the adjoint mode. -/
theorem C108_pair_partial (p : Prob K) {phi} (hp : p.Good phi) (ha : p.adjoint = false) (hf : p.Fissile phi) {k : K}
    (hk : k ≠ 0) (J) (hb : p.Balance k true J phi fun _ _ => 0) (fix) (first relax old)
    (ho : p.Settled phi J fix first relax old) (srt : List (Trip K) → List (Trip K)) (hs : IsSort srt) :
    ∃ M bM F bF, (p.eigenLoss phi J fix first relax old).sys.make srt = .ok (some M, bM) ∧
      p.eigenGain phi srt = .ok (some F, bF) ∧ (∀ b ∈ bM ++ bF, b = true) ∧
      PosPair (p.G * p.M.size) F M k (p.coarsen phi) := by
  obtain ⟨M, bM, m1, m2, m3⟩ := loss_coarsen p hp J fix first relax old ho srt hs
  obtain ⟨F, bF, f1, f2, f3⟩ := gain_rows p phi srt hs
  refine ⟨M, bM, F, bF, m1, f1, ?_, ?_, ?_⟩
  · intro b hb
    rcases List.mem_append.1 hb with h | h
    exacts [m2 b h, f2 b h]
  · intro r hr
    obtain ⟨g, hg, c, hc, rfl⟩ := split_row hr
    exact coarsen_pos p hp hg hc
  · intro r hr
    obtain ⟨g, hg, c, hc, rfl⟩ := split_row hr
    obtain ⟨⟨X, hX⟩, h2, h3⟩ := hf c hc
    have hfis : p.forEigen.coarseFission phi none g c = ∑ i ∈ p.cells c,
        (∑ gp ∈ range p.G, p.fm.chi (p.mat i) g * p.fm.nsf (p.mat i) gp * phi gp i) * p.vol i :=
      coarse_fission p.forEigen (good_forEigen p hp) none hc X hX h2 h3 hg
    have hbal := hb g hg c hc
    rw [f3 _ g hg c hc, gain_coarsen p hp hc, m3 g hg c hc, hfis]
    have hv := (volume_pos p hp hc).ne'
    unfold Prob.net at hbal
    simp only [ha, Bool.false_eq_true, if_false, if_true, zero_mul, Finset.sum_const_zero] at hbal
    have hsplit : ∑ i ∈ p.cells c, (p.fm.st (p.mat i) g * phi g i - ∑ gp ∈ range p.G, p.fm.ss (p.mat i) g gp * phi gp i
          - 1 / k * ∑ gp ∈ range p.G, p.fm.chi (p.mat i) g * p.fm.nsf (p.mat i) gp * phi gp i) * p.vol i
        = ∑ i ∈ p.cells c, (p.fm.st (p.mat i) g * phi g i
            - ∑ gp ∈ range p.G, p.fm.ss (p.mat i) g gp * phi gp i) * p.vol i
          - 1 / k * ∑ i ∈ p.cells c, (∑ gp ∈ range p.G, p.fm.chi (p.mat i) g * p.fm.nsf (p.mat i) gp * phi gp i)
            * p.vol i := by
      rw [Finset.mul_sum, ← Finset.sum_sub_distrib]
      refine Finset.sum_congr rfl fun i _ => ?_
      ring
    rw [hsplit] at hbal
    generalize ∑ i ∈ p.cells c, (p.fm.st (p.mat i) g * phi g i
            - ∑ gp ∈ range p.G, p.fm.ss (p.mat i) g gp * phi gp i) * p.vol i = A at hbal ⊢
    generalize ∑ i ∈ p.cells c, (∑ gp ∈ range p.G, p.fm.chi (p.mat i) g * p.fm.nsf (p.mat i) gp * phi gp i)
            * p.vol i = B at hbal ⊢
    have hB : B = k * (p.leak J g c + A) := by
      have : p.leak J g c + A = 1 / k * B := by linarith
      rw [this]
      field_simp
    rw [hB]
    ring

/-- The full statement: whatever positive flux satisfies the balance with multiplication factor `k`, the update returns
    `k` and leaves the flux alone. -/
def C108Claim (K : Type) [Field K] [LinearOrder K] [IsStrictOrderedRing K] : Prop :=
  ∀ (p : Prob K) (phi : Nat → Nat → K), p.Good phi → p.adjoint = false → ∀ k : K, 0 < k → ∀ J,
    (p.Balance k true J phi fun _ _ => 0) → ∀ fix first relax old, p.Settled phi J fix first relax old →
    ∀ srt, IsSort srt → ∀ nrm, NormOK (p.G * p.M.size) nrm → ∀ eig,
    (∀ M bM F bF, (p.eigenLoss phi J fix first relax old).sys.make srt = .ok (some M, bM) →
      p.eigenGain phi srt = .ok (some F, bF) → EigExact (p.G * p.M.size) eig F M) →
    p.eigenUpdate srt nrm eig J fix first relax old phi = some (k, phi)

theorem scale_same (p : Prob K) {phi} (hp : p.Good phi) (x x0 : Nat → K) (hx : ∀ r < p.G * p.M.size, x r = x0 r)
    (h0 : ∀ r < p.G * p.M.size, x0 r ≠ 0) : p.scale x x0 phi = phi := by
  funext g i
  unfold Prob.scale
  split
  · rename_i h
    have hr : p.map i + g * p.M.size < p.G * p.M.size := by
      have := hp.map i h.2
      have h2 : (g + 1) * p.M.size ≤ p.G * p.M.size := Nat.mul_le_mul_right _ h.1
      rw [Nat.add_mul, Nat.one_mul] at h2
      omega
    rw [hx _ hr, mul_div_assoc, div_self (h0 _ hr)]
    ring
  · rfl

/-- **C108 (solutions are fixed points), partial.** Under the conditions of `C108_pair_partial` and with an eigenvalue
    solver that works, the update returns `k` and leaves the flux alone.  Missing: as there. -/
theorem C108_fixed_point_partial (p : Prob K) {phi} (hp : p.Good phi) (ha : p.adjoint = false) (hf : p.Fissile phi) {k : K}
    (hk : k ≠ 0) (J) (hb : p.Balance k true J phi fun _ _ => 0) (fix) (first relax old)
    (ho : p.Settled phi J fix first relax old) (srt : List (Trip K) → List (Trip K)) (hs : IsSort srt)
    (nrm) (hn : NormOK (p.G * p.M.size) nrm) (eig)
    (he : ∀ M bM F bF, (p.eigenLoss phi J fix first relax old).sys.make srt = .ok (some M, bM) →
      p.eigenGain phi srt = .ok (some F, bF) → EigExact (p.G * p.M.size) eig F M) :
    p.eigenUpdate srt nrm eig J fix first relax old phi = some (k, phi) := by
  obtain ⟨M, bM, F, bF, h1, h2, _, h3, h4⟩ := C108_pair_partial p hp ha hf hk J hb fix first relax old ho srt hs
  have hx := hn.pos _ h3
  have hpos : ∀ r < p.G * p.M.size, 0 < p.coarsen phi r * (1 / nrm (p.coarsen phi)) := fun r hr =>
    mul_pos (h3 r hr) (one_div_pos.2 hx)
  obtain ⟨e1, e2, e3⟩ := he M bM F bF h1 h2 _ hpos
  have hk1 := e2 k _ ⟨h3, h4⟩
  -- the guess solves the problem as well
  have lin : ∀ (C : CSR K) (r : Nat), C.multiply (fun r => p.coarsen phi r * (1 / nrm (p.coarsen phi))) r
      = C.multiply (p.coarsen phi) r * (1 / nrm (p.coarsen phi)) := by
    intro C r
    rw [multiply_spec, multiply_spec, ← List.sum_map_mul_right]
    congr 2
    funext i
    ring
  obtain ⟨a, h5⟩ := e3 k ⟨hpos, fun r hr => by rw [lin, lin, h4 r hr, mul_assoc]⟩
  unfold Prob.eigenUpdate
  rw [h1, h2]
  simp only [Option.some.injEq, Prod.mk.injEq]
  refine ⟨hk1.symm, (scale_same p hp _ _ (fun r hr => ?_) fun r hr => (hpos r hr).ne')⟩
  have ha0 : 0 < a := by
    have := e1.1 r hr
    rw [h5 r hr] at this
    exact pos_of_mul_pos_left this (hpos r hr).le
  have hn1 : nrm (fun r => p.coarsen phi r * (1 / nrm (p.coarsen phi))) = 1 := by
    rw [hn.scale (1 / nrm (p.coarsen phi)) (one_div_pos.2 hx) (p.coarsen phi) _ fun r _ => mul_comm _ _]
    exact one_div_mul_cancel hx.ne'
  rw [hn.scale a ha0 _ _ h5, hn1, h5 r hr]
  have := ha0.ne'
  field_simp

/-- **C108 (fission in no emitting group).** When every group either has no fission or no part in any spectrum, the coarse
    gain operator is zero, however much the problem multiplies. -/
theorem C108_zero_gain (p : Prob K) (phi : Nat → Nat → K)
    (h : ∀ g < p.G, (∀ m, p.fm.sf m g = 0) ∨ ∀ m, p.fm.chi m g = 0)
    (srt : List (Trip K) → List (Trip K)) (hs : IsSort srt) :
    ∃ F bs, p.eigenGain phi srt = .ok (some F, bs) ∧ ∀ x, ∀ r < p.G * p.M.size, F.multiply x r = 0 := by
  obtain ⟨F, bs, h1, _, h2⟩ := gain_rows p phi srt hs
  refine ⟨F, bs, h1, fun x r hr => ?_⟩
  obtain ⟨g, hg, c, hc, rfl⟩ := split_row hr
  rw [h2 x g hg c hc]
  suffices hz : (Homog.coarse (p.forEigen.input phi none) (p.forEigen.opt none)).chi c g = 0 by rw [hz, zero_mul]
  show (if _ then _ else _) = _
  rcases h g hg with h0 | h0
  · rw [if_neg]
    rintro ⟨_, h3⟩
    rw [Homog.rate_eq _ rfl, reaction_one p.forEigen phi none _ hg] at h3
    refine absurd h3 (not_lt.2 (le_of_eq (Finset.sum_eq_zero fun i _ => ?_)))
    show p.fm.sf (p.mat i) g * phi g i * p.vol i = 0
    rw [h0, zero_mul, zero_mul]
  · split
    · have : Homog.chiAcc (p.forEigen.input phi none) g c = 0 := by
        unfold Homog.chiAcc
        rw [Homog.acc_eq, cg_ones, groupsOf_ones _ _ (show g < p.forEigen.G from hg), Finset.sum_singleton]
        refine Finset.sum_eq_zero fun i _ => ?_
        show _ * p.fm.chi _ g = 0
        rw [h0, mul_zero]
      rw [this, zero_div]
    · rfl

/-! ## A problem where the answer is wrong -/

/-- One closed cell, two groups: neutrons are born fast, slow down, and cause fission when slow. -/
def thermal : Prob ℚ where
  G := 2
  n := 1
  vol := fun _ => 1
  map := fun _ => 0
  mat := fun _ => 0
  fm := ⟨fun _ _ => 1, fun _ g => if g = 0 then 0 else 1, fun _ g => if g = 0 then 0 else 1,
    fun _ g => if g = 0 then 0 else 2, fun _ g => if g = 0 then 1 else 0, fun _ _ => 1,
    fun _ g gp => if g = 1 ∧ gp = 0 then 1 else 0⟩
  M := ⟨1, 1, 1, 1, fun _ _ => 1⟩
  al := fun _ => 1
  multiply := true
  adjoint := false
  dcw := 0
  omega := 1

theorem thermal_cells : thermal.cells 0 = {0} := by decide

theorem thermal_good : thermal.Good (fun _ _ => 1) where
  grid := ⟨show 1 ≤ 3 by decide, by
    intro a h1 h2
    have h1' : 1 ≤ a := h1
    interval_cases a <;> rfl⟩
  h := fun _ _ => one_pos
  G := two_pos
  vol := fun _ _ => one_pos
  map := fun _ _ => one_pos
  onto := fun c hc => ⟨0, one_pos, (Nat.lt_one_iff.1 hc).symm⟩
  volume := by
    intro c hc
    rw [Nat.lt_one_iff.1 hc, thermal_cells, Finset.sum_singleton]
    decide +kernel
  st := fun _ _ => one_pos
  ss := by
    intro m g gp
    show (0 : ℚ) ≤ if _ then _ else _
    split <;> norm_num
  phi := fun _ _ _ _ => one_pos

/-- It multiplies by two: unit flux in both groups satisfies the balance with k two. -/
theorem thermal_balance : thermal.Balance 2 true (fun _ _ _ _ _ => 0) (fun _ _ => 1) fun _ _ => 0 := by
  intro g hg c hc
  have hg' : g < 2 := hg
  rw [Nat.lt_one_iff.1 hc, thermal_cells, Finset.sum_singleton, Finset.sum_singleton]
  have : thermal.leak (fun _ _ _ _ _ => (0 : ℚ)) g 0 = 0 := by simp [Prob.leak]
  rw [this]
  interval_cases g <;> decide +kernel

/-- **C108 (wrong eigenvalue).** Whatever the eigenvalue solver, as long as it works, the update gives this problem the
    multiplication factor zero instead of two. -/
theorem C108_wrong_eigenvalue (nrm) (hn : NormOK 2 nrm) (eig)
    (he : ∀ M bM F bF, (thermal.eigenLoss (fun _ _ => 1) (fun _ _ _ _ _ => 0) (fun _ _ _ => false) true 1
        fun _ _ _ => 0).sys.make insSort = .ok (some M, bM) →
      thermal.eigenGain (fun _ _ => 1) insSort = .ok (some F, bF) → EigExact 2 eig F M) :
    ∃ phi', thermal.eigenUpdate insSort nrm eig (fun _ _ _ _ _ => 0) (fun _ _ _ => false) true 1 (fun _ _ _ => 0)
      (fun _ _ => 1) = some (0, phi') := by
  obtain ⟨M, bM, m1, _, m3⟩ := loss_coarsen thermal thermal_good (fun _ _ _ _ _ => 0) (fun _ _ _ => false) true 1
    (fun _ _ _ => 0) (Or.inl rfl) insSort insSort_isSort
  obtain ⟨F, bF, f1, f2⟩ := C108_zero_gain thermal (fun _ _ => 1) (by
    intro g hg
    have hg' : g < 2 := hg
    interval_cases g
    exacts [Or.inl fun _ => rfl, Or.inr fun _ => rfl]) insSort insSort_isSort
  have hx : ∀ r < 2, 0 < thermal.coarsen (fun _ _ => 1) r := by
    intro r hr
    obtain ⟨g, hg, c, hc, rfl⟩ := split_row (G := 2) (N := 1) hr
    exact coarsen_pos thermal thermal_good hg hc
  have hN := hn.pos _ hx
  obtain ⟨_, e2, _⟩ := he M bM F bF m1 f1 (fun r => thermal.coarsen (fun _ _ => 1) r
    * (1 / nrm (thermal.coarsen fun _ _ => 1))) fun r hr => mul_pos (hx r hr) (one_div_pos.2 hN)
  have h0 := e2 0 _ ⟨hx, fun r hr => by rw [f2 _ r hr, zero_mul]⟩
  unfold Prob.eigenUpdate
  rw [m1, f1]
  refine ⟨_, congrArg some (Prod.ext h0.symm rfl)⟩

theorem thermal_row (M : CSR ℚ) (bM) (m1 : (thermal.eigenLoss (fun _ _ => 1) (fun _ _ _ _ _ => 0) (fun _ _ _ => false)
    true 1 fun _ _ _ => 0).sys.make insSort = .ok (some M, bM)) (y : Nat → ℚ) : M.multiply y 0 = y 0 := by
  have f := cmfd_full thermal.forEigen (good_forEigen _ thermal_good) none (fun _ _ _ _ _ => 0) (fun _ _ _ => false) 1
  obtain ⟨M', h1, _, _, h2⟩ := cmfd_rows (thermal.eigenLoss (fun _ _ => 1) (fun _ _ _ _ _ => 0) (fun _ _ _ => false)
    true 1 fun _ _ _ => 0) ⟨f.1, f.2, f.3, f.4⟩ insSort insSort_isSort
  rw [h1, Out.ok.injEq, Prod.mk.injEq, Option.some.injEq] at m1
  obtain ⟨rfl, _⟩ := m1
  have h3 := h2 y 0 two_pos 0 one_pos
  have hsz : (thermal.eigenLoss (fun _ _ => 1) (fun _ _ _ _ _ => 0) (fun _ _ _ => false) true 1 fun _ _ _ => 0).L.M.size
    = 1 := rfl
  rw [hsz] at h3
  simp only [Nat.zero_mul, Nat.add_zero] at h3
  rw [h3]
  have hz : ∀ leak ∈ range (2 * (thermal.eigenLoss (fun _ _ => 1) (fun _ _ _ _ _ => 0) (fun _ _ _ => false) true 1
      fun _ _ _ => 0).L.M.dim), (thermal.eigenLoss (fun _ _ => 1) (fun _ _ _ _ _ => 0) (fun _ _ _ => false) true 1
      fun _ _ _ => 0).faceApply 0 (fun c => y c) 0 leak / (thermal.eigenLoss (fun _ _ => 1) (fun _ _ _ _ _ => 0)
      (fun _ _ _ => false) true 1 fun _ _ _ => 0).L.M.width 0 (leak / 2) = 0 := by
    intro leak hl
    have hl' : leak < 2 := mem_range.1 hl
    have hj : (thermal.eigenLoss (fun _ _ => 1) (fun _ _ _ _ _ => 0) (fun _ _ _ => false) true 1
        fun _ _ _ => 0).jo 0 0 leak = 0 := by interval_cases leak <;> decide +kernel
    unfold Cmfd.faceApply
    rw [hj, if_pos (by interval_cases leak <;> rfl)]
    ring
  rw [Finset.sum_eq_zero hz]
  unfold Loss.local
  have hact : (thermal.eigenLoss (fun _ _ => 1) (fun _ _ _ _ _ => 0) (fun _ _ _ => false) true 1
        fun _ _ _ => 0).L.active = {0, 1} := by decide
  have hst : (thermal.eigenLoss (fun _ _ => 1) (fun _ _ _ _ _ => 0) (fun _ _ _ => false) true 1
        fun _ _ _ => 0).L.mat.sigT 0 0 = 1 := by decide +kernel
  have hs : ∀ gp < 2, (thermal.eigenLoss (fun _ _ => 1) (fun _ _ _ _ _ => 0) (fun _ _ _ => false) true 1
        fun _ _ _ => 0).L.scatXs 0 gp 0 = 0 := by
    intro gp h
    interval_cases gp <;> decide +kernel
  have hsf : (thermal.eigenLoss (fun _ _ => 1) (fun _ _ _ _ _ => 0) (fun _ _ _ => false) true 1
        fun _ _ _ => 0).L.sf = 0 := rfl
  have hfi : (thermal.eigenLoss (fun _ _ => 1) (fun _ _ _ _ _ => 0) (fun _ _ _ => false) true 1
        fun _ _ _ => 0).L.fission = false := rfl
  rw [hact, hsf, hfi, if_pos rfl, if_neg (by simp), Finset.sum_pair (by decide), hs 0 (by decide), hs 1 (by decide)]
  have hp : (thermal.eigenLoss (fun _ _ => 1) (fun _ _ _ _ _ => 0) (fun _ _ _ => false) true 1
        fun _ _ _ => 0).L.pos 0 0 = 0 := rfl
  have hm : (thermal.eigenLoss (fun _ _ => 1) (fun _ _ _ _ _ => 0) (fun _ _ _ => false) true 1
        fun _ _ _ => 0).L.mmap 0 = 0 := rfl
  rw [hp, hm, hst]
  ring

/-- The full statement fails. -/
theorem C108_claim_fails : ¬ C108Claim ℚ := by
  intro h
  have he : ∀ M bM F bF, (thermal.eigenLoss (fun _ _ => 1) (fun _ _ _ _ _ => 0) (fun _ _ _ => false) true 1
        fun _ _ _ => 0).sys.make insSort = .ok (some M, bM) →
      thermal.eigenGain (fun _ _ => 1) insSort = .ok (some F, bF) → EigExact 2 (fun _ _ x => ((0 : ℚ), x)) F M := by
    intro M bM F bF m1 f1 x hx
    obtain ⟨F', bF', f1', f2⟩ := C108_zero_gain thermal (fun _ _ => 1) (by
      intro g hg
      have hg' : g < 2 := hg
      interval_cases g
      exacts [Or.inl fun _ => rfl, Or.inr fun _ => rfl]) insSort insSort_isSort
    rw [f1', Out.ok.injEq, Prod.mk.injEq, Option.some.injEq] at f1
    obtain ⟨rfl, _⟩ := f1
    refine ⟨⟨hx, fun r hr => by rw [f2 _ r hr, zero_mul]⟩, ?_, fun k _ => ⟨1, fun r _ => (one_mul _).symm⟩⟩
    rintro k y ⟨h1, h2⟩
    have h3 := h2 0 two_pos
    rw [f2 y 0 two_pos, thermal_row M bM m1] at h3
    rcases mul_eq_zero.1 h3.symm with h4 | h4
    · exact h4
    · exact absurd h4 (h1 0 two_pos).ne'
  have hn : NormOK 2 (fun v : Nat → ℚ => v 0) := ⟨fun a _ v w hw => hw 0 two_pos, fun v hv => hv 0 two_pos⟩
  have h1 := h thermal (fun _ _ => 1) thermal_good rfl 2 two_pos (fun _ _ _ _ _ => 0) thermal_balance
    (fun _ _ _ => false) true 1 (fun _ _ _ => 0) (Or.inl rfl) insSort insSort_isSort (fun v => v 0) hn
    (fun _ _ x => (0, x)) he
  obtain ⟨phi', h2⟩ := C108_wrong_eigenvalue (fun v => v 0) hn (fun _ _ x => (0, x)) he
  rw [h2, Option.some.injEq, Prod.mk.injEq] at h1
  exact absurd h1.1 (by norm_num)

/-! ## The loop -/

section
omit [IsStrictOrderedRing K]
variable {S D : Type}

/-- State and density after `m` full iterations. -/
def ELoop.pass (l : ELoop S D K) (s : S) (d : D) : Nat → S × D
  | 0 => (s, d)
  | m + 1 =>
    let q := l.pass s d m
    ((l.update (l.sweep q.2 q.1)).2, l.normed (l.dens (l.update (l.sweep q.2 q.1)).2))

/-- Multiplication factor found by iteration `m + 1`. -/
def ELoop.found (l : ELoop S D K) (s : S) (d : D) (m : Nat) : K :=
  (l.update (l.sweep (l.pass s d m).2 (l.pass s d m).1)).1

/-- Change of the density seen by iteration `m + 1`. -/
def ELoop.seen (l : ELoop S D K) (s : S) (d : D) (m : Nat) : K :=
  l.change (l.pass s d (m + 1)).2 (l.pass s d m).2

theorem ego_spec (l : ELoop S D K) (s : S) (d : D) : ∀ (left n : Nat) (k : K),
    (∃ m < left, l.go left (n + 1) k (l.pass s d n).1 (l.pass s d n).2
        = ⟨l.found s d (n + m), (l.pass s d (n + m + 1)).1, (l.pass s d (n + m + 1)).2, n + m + 1, true⟩ ∧
      l.seen s d (n + m) < l.tol ∧ ∀ j < m, l.tol ≤ l.seen s d (n + j)) ∨
    (l.go left (n + 1) k (l.pass s d n).1 (l.pass s d n).2
        = ⟨if left = 0 then k else l.found s d (n + left - 1), (l.pass s d (n + left)).1, (l.pass s d (n + left)).2,
            n + left + 1, false⟩ ∧
      ∀ j < left, l.tol ≤ l.seen s d (n + j)) := by
  intro left
  induction left with
  | zero => intro n k; exact Or.inr ⟨rfl, by omega⟩
  | succ left ih =>
    intro n k
    unfold ELoop.go
    change (∃ m < left + 1, (if l.seen s d n < l.tol then
        (⟨l.found s d n, (l.pass s d (n + 1)).1, (l.pass s d (n + 1)).2, n + 1, true⟩ : ELoopOut S D K)
        else l.go left (n + 1 + 1) (l.found s d n) (l.pass s d (n + 1)).1 (l.pass s d (n + 1)).2) = _ ∧ _) ∨
      ((if l.seen s d n < l.tol then
        (⟨l.found s d n, (l.pass s d (n + 1)).1, (l.pass s d (n + 1)).2, n + 1, true⟩ : ELoopOut S D K)
        else l.go left (n + 1 + 1) (l.found s d n) (l.pass s d (n + 1)).1 (l.pass s d (n + 1)).2) = _ ∧ _)
    by_cases h : l.seen s d n < l.tol
    · exact Or.inl ⟨0, by omega, by rw [if_pos h]; rfl, h, by omega⟩
    · have hle := not_lt.1 h
      rw [if_neg h]
      rcases ih (n + 1) (l.found s d n) with ⟨m, hm, h1, h2, h3⟩ | ⟨h1, h2⟩
      · refine Or.inl ⟨m + 1, by omega, ?_, ?_, ?_⟩
        · rw [h1, show n + 1 + m = n + (m + 1) by omega]
        · rw [show n + (m + 1) = n + 1 + m by omega]; exact h2
        · intro j hj
          rcases Nat.eq_zero_or_pos j with rfl | hj0
          · exact hle
          · have := h3 (j - 1) (by omega)
            rwa [show n + 1 + (j - 1) = n + j by omega] at this
      · refine Or.inr ⟨?_, ?_⟩
        · rw [h1, show n + 1 + left = n + (left + 1) by omega, if_neg (by omega : left + 1 ≠ 0)]
          congr 1
          by_cases h0 : left = 0
          · subst h0
            rw [if_pos rfl]
            rfl
          · rw [if_neg h0]
        · intro j hj
          rcases Nat.eq_zero_or_pos j with rfl | hj0
          · exact hle
          · have := h2 (j - 1) (by omega)
            rwa [show n + 1 + (j - 1) = n + j by omega] at this

/-- **C108 (loop).** At most `max` iterations are made, each one sweep and one update.  The loop stops after the first that
    changes the density by less than the tolerance; the eigenvalue it leaves is that of the last update, however much it
    was still changing.  With limit zero it is one. -/
theorem C108_loop (l : ELoop S D K) (s : S) (d : D) :
    (∃ m < l.max, l.solve s d = ⟨l.found s d m, (l.pass s d (m + 1)).1, (l.pass s d (m + 1)).2, m + 1, true⟩ ∧
      l.seen s d m < l.tol ∧ ∀ j < m, l.tol ≤ l.seen s d j) ∨
    (l.solve s d = ⟨if l.max = 0 then 1 else l.found s d (l.max - 1), (l.pass s d l.max).1, (l.pass s d l.max).2,
        l.max + 1, false⟩ ∧ ∀ j < l.max, l.tol ≤ l.seen s d j) := by
  have := ego_spec l s d l.max 0 1
  simp only [Nat.zero_add] at this
  exact this

end

-- The hypotheses of `C108_pair_partial` and `C108_fixed_point_partial` hold for `pot` with k one half.
example : pot.Good (fun _ _ => 1) ∧ pot.Fissile (fun _ _ => 1) ∧
    pot.Balance (1 / 2) true (fun _ _ _ _ _ => 0) (fun _ _ => 1) fun _ _ => 0 := by
  refine ⟨pot_good _ one_pos, ?_, ?_⟩
  · intro c hc
    rw [Nat.lt_one_iff.1 hc, pot_cells]
    refine ⟨⟨fun _ => 1, fun _ _ _ _ => rfl⟩, ?_, ?_⟩
    · intro g hg
      rw [Nat.lt_one_iff.1 hg]
      decide +kernel
    · decide +kernel
  · intro g hg c hc
    rw [Nat.lt_one_iff.1 hg, Nat.lt_one_iff.1 hc, pot_cells]
    decide +kernel

/-- A loop whose density settles at once. -/
def hasty : ELoop ℚ ℚ ℚ where
  dens := fun s => s
  sweep := fun _ s => s + 1
  update := fun s => (if s = 1 then 1 else 100, min s 1)
  normed := id
  change := fun a b => |a - b|
  tol := 1
  max := 5

-- It stops in its second iteration although the eigenvalue has just gone from 1 to 100.
example : (hasty.solve 0 0).keff = 100 ∧ (hasty.solve 0 0).stopped = true ∧ hasty.found 0 0 0 = 1 := by decide +kernel

end Detran.CmfdUpd
