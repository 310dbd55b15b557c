import Verif.Props.Homog
import Verif.Props.Infinite
import Verif.Props.Perturb

/-!
# Condensed and homogenised constants keep the multiplication factor (C148)
-/

namespace Detran.Homog
open Finset

variable {K : Type} [Field K] [LinearOrder K]

/-! ## Specification -/

/-- Neutrons made per volume in cell `i`. -/
def produced (I : Input K) (i : Nat) : K := ∑ gp ∈ range I.G, I.m.nsf (I.mat i) gp * I.phi gp i

/-- The fluxes balance over the whole domain, fine group by fine group: what collides is the source `Q`, `f` times the neutrons born, and what
    scatters in.  (`f` is 1/k for modes; nothing leaves.) -/
def Balanced (I : Input K) (f : K) (Q : Nat → K) : Prop := ∀ g < I.G,
  ∑ i ∈ range I.cells, I.vol i * (I.m.st (I.mat i) g * I.phi g i) =
    Q g + ∑ i ∈ range I.cells, I.vol i * (f * (I.m.chi (I.mat i) g * produced I i) + ∑ gp ∈ range I.G, I.m.ss (I.mat i) g gp * I.phi gp i)

/-- The few-group data `m` of region 0 balance with the fluxes `v`, coarse group by coarse group. -/
def Holds (m : Mat K) (n : Nat) (f : K) (Q v : Nat → K) : Prop := ∀ c < n,
  m.st 0 c * v c = Q c + f * (m.chi 0 c * ∑ c' ∈ range n, m.nsf 0 c' * v c') + ∑ c' ∈ range n, m.ss 0 c c' * v c'

/-- One region, all groups, and what the code's treatment of fission needs: one spectrum `X`, neutrons made in the last fine group, and fissions in
    every coarse group that emits or makes any. -/
structure Faithful (I : Input K) (X : Nat → K) : Prop where
  first : I.g0 = 0
  all : I.cg.sum = I.G
  one : ∀ i < I.cells, I.reg i = 0
  seen : ∀ c < I.cg.length, flux I c 0 ≠ 0 ∧ 0 < reaction I I.m.st c 0
  spectrum : ∀ i < I.cells, (∃ gp < I.G, I.m.nsf (I.mat i) gp * I.phi gp i ≠ 0) → ∀ g < I.G, I.m.chi (I.mat i) g = X g
  last : ∑ i ∈ range I.cells, I.vol i * (I.m.nsf (I.mat i) (I.G - 1) * I.phi (I.G - 1) i) ≠ 0
  fissions : ∀ c < I.cg.length, 0 < reaction I I.m.sf c 0 ∨ (∑ g ∈ groupsOf I.cg c, X g = 0 ∧ reaction I I.m.nsf c 0 = 0)

/-! ## Lemmas -/

theorem over_groups (v : Nat → K) : ∀ (ks : List Nat) (s : Nat),
    ∑ c ∈ range ks.length, ∑ g ∈ Ico (s + (ks.take c).sum) (s + (ks.take c).sum + ks.getD c 0), v g = ∑ g ∈ Ico s (s + ks.sum), v g
  | [], s => by simp
  | k :: ks, s => by
    rw [List.length_cons, sum_range_succ']
    simp only [List.take_succ_cons, List.sum_cons, List.getD_cons_succ, List.take_zero, List.sum_nil, Nat.add_zero, List.getD_cons_zero]
    have := over_groups v ks (s + k)
    simp only [Nat.add_assoc] at this ⊢
    rw [this, add_comm, ← sum_Ico_consecutive v (show s ≤ s + k by omega) (show s + k ≤ s + (k + ks.sum) by omega)]

theorem over_all {cg : List Nat} {G : Nat} (h : cg.sum = G) (v : Nat → K) :
    ∑ c ∈ range cg.length, ∑ g ∈ groupsOf cg c, v g = ∑ g ∈ range G, v g := by
  have := over_groups v cg 0
  simp only [Nat.zero_add] at this
  rw [← h, range_eq_Ico (a := cg.sum)]
  exact this

section lemmas
variable {I : Input K} {X : Nat → K} [IsStrictOrderedRing K]

theorem Faithful.cells (h : Faithful I X) : cellsOf I 0 = range I.cells := by
  unfold cellsOf
  rw [filter_true_of_mem fun i hi => h.one i (mem_range.1 hi)]

theorem Faithful.pos (h : Faithful I X) {c : Nat} (hc : c < I.cg.length) : 0 < I.cg.getD c 0 := by
  rcases Nat.eq_zero_or_pos (I.cg.getD c 0) with e | e
  · have := (h.seen c hc).1
    unfold flux groupsOf at this
    rw [e] at this
    simp at this
  · exact e

theorem Faithful.groups (h : Faithful I X) (hn : 0 < I.cg.length) : 0 < I.G := by
  have h0 := h.pos hn
  have : I.cg.getD 0 0 ≤ I.cg.sum := by
    cases hcg : I.cg with
    | nil => simp
    | cons k ks => simp
  have := h.all
  omega

theorem Faithful.chiAcc (h : Faithful I X) {c : Nat} (hc : c < I.cg.length) :
    Homog.chiAcc I c 0 = (∑ g ∈ groupsOf I.cg c, X g) * ∑ i ∈ cellsOf I 0, tempFd I i := by
  have hG := h.groups (by omega)
  rw [Homog.chiAcc, acc_eq, sum_mul]
  refine sum_congr rfl fun g hg => ?_
  rw [mul_sum]
  refine sum_congr rfl fun i hi => ?_
  rw [h.first, Nat.add_zero]
  by_cases hz : tempFd I i = 0
  · rw [hz, zero_mul, mul_zero]
  · rw [h.cells] at hi
    rw [h.spectrum i (mem_range.1 hi) ⟨I.G - 1, by omega, fun e => hz (by
      rw [tempFd_last I i hG, mul_comm (I.phi _ _), e, zero_mul])⟩ g (by
        rw [← h.all]
        exact groupsOf_le _ _ _ hc hg), mul_comm]

/-- The condensed spectrum is the spectrum summed over the group. -/
theorem Faithful.chi (h : Faithful I X) (o : Nat) {c : Nat} (hc : c < I.cg.length) : (coarse I o).chi 0 c = ∑ g ∈ groupsOf I.cg c, X g := by
  have hG := h.groups (by omega)
  have hl : ∑ i ∈ cellsOf I 0, tempFd I i ≠ 0 := by
    rw [h.cells]
    exact fun e => h.last (Eq.trans (sum_congr rfl fun i _ => by rw [tempFd_last I i hG]; ring) e)
  simp only [coarse, rate_eq I h.first, h.chiAcc hc]
  by_cases hs : 0 < reaction I I.m.sf c 0
  · rw [if_pos ⟨(h.seen c hc).2, hs⟩, fdAcc, if_pos (h.pos hc), foldl_if_sum, zero_add]
    exact mul_div_cancel_right₀ _ hl
  · rw [if_neg fun h => hs h.2, ((h.fissions c hc).resolve_left hs).1]

/-- The condensed production is the production. -/
theorem Faithful.made (h : Faithful I X) (o : Nat) {c : Nat} (hc : c < I.cg.length) :
    (coarse I o).nsf 0 c * flux I c 0 = reaction I I.m.nsf c 0 := by
  by_cases hs : 0 < reaction I I.m.sf c 0
  · exact (C44_fission I o h.first c 0 (h.seen c hc).1 (h.seen c hc).2 hs).2
  · rw [((h.fissions c hc).resolve_left hs).2]
    simp only [coarse, rate_eq I h.first]
    rw [if_neg fun h => hs h.2, zero_mul]

end lemmas

/-! ## Few-group data -/

/-- Fluxes that balance over the domain, condensed and integrated, balance with the constants `homogenize` gives. -/
theorem C148_medium_partial [IsStrictOrderedRing K] (I : Input K) (o : Nat) {X : Nat → K} (h : Faithful I X) (f : K) (Q : Nat → K) (hb : Balanced I f Q) :
    Holds (coarse I o) I.cg.length f (fun c => ∑ g ∈ groupsOf I.cg c, Q g) fun c => flux I c 0 := by
  intro c hc
  have hlt : ∀ g ∈ groupsOf I.cg c, g < I.G := fun g hg => by
    rw [← h.all]
    exact groupsOf_le _ _ _ hc hg
  have e1 : reaction I I.m.st c 0 = ∑ g ∈ groupsOf I.cg c, ∑ i ∈ range I.cells, I.vol i * (I.m.st (I.mat i) g * I.phi g i) := by
    unfold reaction
    rw [h.cells]
    exact sum_congr rfl fun g _ => sum_congr rfl fun i _ => by ring
  have e2 : ∑ c' ∈ range I.cg.length, (coarse I o).nsf 0 c' * flux I c' 0 = ∑ i ∈ range I.cells, I.vol i * produced I i := by
    rw [sum_congr rfl fun c' hc' => h.made o (mem_range.1 hc')]
    unfold reaction produced
    rw [over_all h.all fun g => ∑ i ∈ cellsOf I 0, _, h.cells, sum_comm]
    refine sum_congr rfl fun i _ => ?_
    rw [mul_sum]
    exact sum_congr rfl fun g _ => by ring
  have e3 : ∑ c' ∈ range I.cg.length, (coarse I o).ss 0 c c' * flux I c' 0 =
      ∑ g ∈ groupsOf I.cg c, ∑ i ∈ range I.cells, I.vol i * ∑ gp ∈ range I.G, I.m.ss (I.mat i) g gp * I.phi gp i := by
    rw [sum_congr rfl fun c' hc' => C44_scatter I o h.first h.all c' c 0 hc (h.seen c' (mem_range.1 hc')).1 (h.seen c' (mem_range.1 hc')).2, sum_comm]
    refine sum_congr rfl fun g _ => ?_
    unfold reaction
    rw [over_all h.all fun gp => ∑ i ∈ cellsOf I 0, _, h.cells, sum_comm]
    refine sum_congr rfl fun i _ => ?_
    rw [mul_sum]
    exact sum_congr rfl fun g _ => by ring
  have e4 : ∀ g ∈ groupsOf I.cg c, ∑ i ∈ range I.cells, I.vol i * (f * (I.m.chi (I.mat i) g * produced I i)) =
      f * (X g * ∑ i ∈ range I.cells, I.vol i * produced I i) := by
    intro g hg
    rw [mul_sum, mul_sum]
    refine sum_congr rfl fun i hi => ?_
    by_cases hz : produced I i = 0
    · rw [hz]
      ring
    · obtain ⟨gp, hgp, hne⟩ := exists_ne_zero_of_sum_ne_zero hz
      rw [h.spectrum i (mem_range.1 hi) ⟨gp, mem_range.1 hgp, hne⟩ g (hlt g hg)]
      ring
  show (coarse I o).st 0 c * flux I c 0 = _ + f * ((coarse I o).chi 0 c * ∑ c' ∈ range I.cg.length, (coarse I o).nsf 0 c' * flux I c' 0) +
    ∑ c' ∈ range I.cg.length, (coarse I o).ss 0 c c' * flux I c' 0
  rw [(C44_total I o h.first c 0 (h.seen c hc).1 (h.seen c hc).2).1, e1, e2, e3, h.chi o hc,
    sum_congr rfl fun g hg => hb g (hlt g hg), sum_add_distrib]
  simp only [mul_add, sum_add_distrib]
  rw [sum_congr rfl e4, ← mul_sum, sum_mul]
  ring

/-- Flat data balance with multiples of the fluxes too. -/
theorem holds_smul {m : Mat K} {n : Nat} {f : K} {v : Nat → K} (h : Holds m n f (fun _ => 0) v) (a : K) :
    Holds m n f (fun _ => 0) fun c => a * v c := by
  intro c hc
  have e := h c hc
  have e1 : ∑ c' ∈ range n, m.nsf 0 c' * (a * v c') = a * ∑ c' ∈ range n, m.nsf 0 c' * v c' := by
    rw [mul_sum]
    exact sum_congr rfl fun _ _ => by ring
  have e2 : ∑ c' ∈ range n, m.ss 0 c c' * (a * v c') = a * ∑ c' ∈ range n, m.ss 0 c c' * v c' := by
    rw [mul_sum]
    exact sum_congr rfl fun _ _ => by ring
  show m.st 0 c * (a * v c) = _
  rw [e1, e2]
  linear_combination a * e

end Detran.Homog

/-! ## Transport -/

namespace Detran.MGReflect
open Detran.Boundary (Bd BC)
open Detran.WGReflect (Sweeps Solution)
open Detran.MGSolve Detran.Material
open Detran.Homog (Input Balanced Holds Faithful coarse flux groupsOf produced)
open Finset

section main
variable {F K : Type} [Field K] [LinearOrder K] [IsStrictOrderedRing K]
variable {P : Prob F K} {w V : Nat → K} {m : K}
  {Sol : Nat → (Nat → K) → Nat → Nat → (Nat → F) → (Nat → K) → Prop} {fw : Nat → Nat → Nat → Nat → Nat → K}

/-- What `homogenize` is given for one region: the problem's materials, its fluxes and volumes, all groups from the first. -/
def Prob.cell (P : Prob F K) (V : Nat → K) (phi : Nat → Nat → K) (cg : List Nat) : Input K where
  G := P.M.x.mat.G
  cells := P.M.x.N
  reg := fun _ => 0
  mat := P.M.x.mmap
  vol := V
  phi := phi
  cur := phi
  cg := cg
  g0 := 0
  m := { st := fun r g => P.M.x.mat.sigT g r, sa := fun r g => P.M.x.mat.sigA g r, sf := fun r g => P.M.x.mat.sigF g r
         nsf := fun r g => P.M.x.mat.nuSigF g r, chi := fun r g => P.M.x.mat.chi g r, dc := fun r g => P.M.x.mat.diff g r
         ss := fun r g gp => P.M.x.mat.sigS g gp r }

/-- The problem has the data `d` of region 0 in every cell. -/
structure Filled (P : Prob F K) (sig : Nat → Nat → K) (d : Homog.Mat K) (n : Nat) : Prop where
  groups : P.M.x.mat.G = n
  forward : P.M.x.adjoint = false
  tot : ∀ c < n, ∀ i < P.M.x.N, sig c i = d.st 0 c
  nsf : ∀ c < n, ∀ i < P.M.x.N, P.M.x.mat.nuSigF c (P.M.x.mmap i) = d.nsf 0 c
  chi : ∀ c < n, ∀ i < P.M.x.N, P.M.x.mat.chi c (P.M.x.mmap i) = d.chi 0 c
  ss : ∀ c < n, ∀ c' < n, ∀ i < P.M.x.N, P.M.x.mat.sigS c c' (P.M.x.mmap i) = d.ss 0 c c'

/-- Between mirrors what collides in a group, over all cells, is its whole source. -/
theorem C148_conserved {sig : Nat → Nat → K} (ok : OK P w Sol) (hU : Uniform P w Sol sig m) (hP : Paired P w Sol V fw m)
    (hs : ∀ g < P.M.x.mat.G, ∀ s < 2 * (P.W g).dim, (P.W g).bc s = .reflect) {phi : Nat → Nat → K} (h : MGFlux P w Sol phi)
    {g : Nat} (hg : g < P.M.x.mat.G) :
    ∑ c ∈ range P.M.x.N, V c * (sig g c * phi g c) = ∑ c ∈ range P.M.x.N, V c * P.M.source phi g c := by
  classical
  obtain ⟨b, psi, h⟩ := h g hg
  obtain ⟨b', hb, hq⟩ := hU.flat g hg m
  have hN : (P.W g).N = P.M.x.N := ok.cells g
  have h1 : Solution ((P.W g).alter (P.M.source phi g) (P.W g).bc) w (Sol g)
      (fun _ _ c => (P.M.source phi g c + (fun _ => (0 : K)) c * phi g c) * m + 0) (phi g) (fun _ => 0) (fun _ => 0) b psi := by
    refine ⟨fun o ho a ha => ?_, h.flux, h.vacuum, h.given, h.reflect⟩
    refine sol_congr (ok.sw g hg) ho (h.cells o ho a ha) fun c hc => ?_
    have ho' : o < 2 ^ (P.W g).dim := ho
    have ha' : a < (P.W g).na := ha
    show (P.M.source phi g c + 0 * phi g c) * m + 0 = P.M.source phi g c * (P.W g).mtod o a + ((P.W g).disc.map fun d => d o a c).sum
    rw [hU.mtod g hg o ho' a ha', hU.disc g hg, List.map_nil, List.sum_nil]
    ring
  have h2 : Solution ((P.W g).alter (sig g) (P.W g).bc) w (Sol g) (fun _ _ c => (sig g c + (fun _ => (0 : K)) c * (fun _ => (1 : K)) c) * m + 0)
      (fun _ => 1) (fun _ => 0) (fun _ => 0) (fun _ _ _ => b') (fun _ _ _ => m) := by
    refine ⟨fun o ho a ha => hq _ (fun c _ => by ring) o ho a ha, fun c _ => ?_, fun s h hv => ?_, fun s h ps hv => ?_,
      fun s h _ o ho he o' hm a ha i j hi => sub_self _⟩
    · rw [add_zero]
      refine (hU.norm g hg).symm.trans ?_
      rw [mul_sum]
      refine sum_congr rfl fun o _ => ?_
      rw [mul_sum]
      exact sum_congr rfl fun a _ => mul_comm _ _
    · have e := hs g hg s h
      exact absurd (e.symm.trans hv) (by simp)
    · have e := hs g hg s h
      exact absurd (e.symm.trans hv) (by simp)
  have T := WGReflect.pair_balance (ss := fun _ => 0) (hP.opp g hg) (ok.sw g hg).d1 (ok.sw g hg).d3 (P.M.source phi g) (sig g) (phi g) (fun _ => 1)
    (fun _ _ _ => 0) (fun _ _ _ => 0) (P.W g).bc (P.W g).bc b (fun _ _ _ => b') psi (fun _ _ _ => m) h1 h2
  rw [sum_eq_zero (s := range (2 * (P.W g).dim))] at T
  · simp only [zero_mul, mul_zero, sum_const_zero, add_zero, mul_one, hN] at T
    exact (mul_left_cancel₀ hP.mne T).symm
  · intro s h
    have e := hs g hg s (mem_range.1 h)
    exact if_pos (.inr ⟨e, e⟩)

/-- Modes balance over a domain between mirrors, group by group. -/
theorem C148_mode {sig : Nat → Nat → K} (ok : OK P w Sol) (hU : Uniform P w Sol sig m) (hP : Paired P w Sol V fw m)
    (hs : ∀ g < P.M.x.mat.G, ∀ s < 2 * (P.W g).dim, (P.W g).bc s = .reflect) (ha : P.M.x.adjoint = false)
    (hsig : ∀ g < P.M.x.mat.G, ∀ c < P.M.x.N, sig g c = P.M.x.mat.sigT g (P.M.x.mmap c)) {k : K} {phi : Nat → Nat → K}
    (h : Eigen P w Sol k phi) (cg : List Nat) : Balanced (P.cell V phi cg) (1 / k) fun _ => 0 := by
  intro g hg
  have hg : g < P.M.x.mat.G := hg
  have okF : OK (P.fed k phi) w Sol := ⟨⟨ok.src.fin, ok.src.nn, ok.src.map, ok.src.add, ok.src.loc⟩, ok.cells, ok.bsize,
    fun g hg => ⟨(ok.sw g hg).d1, (ok.sw g hg).d3, (ok.sw g hg).order, (ok.sw g hg).face, (ok.sw g hg).other, (ok.sw g hg).inc,
      (ok.sw g hg).solves, (ok.sw g hg).lin, (ok.sw g hg).det⟩, ok.np⟩
  have e := C148_conserved (P := P.fed k phi) (sig := sig) okF ⟨hU.mtod, hU.norm, fun _ _ => rfl, hU.flat⟩
    ⟨fun g hg => hP.opp g hg, fun g hg => hP.mtod g hg, hP.mne, fun g hg => hP.bc g hg⟩ hs h hg
  rw [zero_add]
  refine Eq.trans (sum_congr rfl fun c hc => ?_) (e.trans (sum_congr rfl fun c _ => ?_))
  · rw [hsig g hg c (mem_range.1 hc)]
    rfl
  · rw [source_couple]
    show V c * (1 / k * P.made phi g c + ∑ gp ∈ range P.M.x.mat.G, couple (P.fed k phi).M g gp c * phi gp c) =
      V c * (1 / k * (P.M.x.mat.chi g (P.M.x.mmap c) * ∑ gp ∈ range P.M.x.mat.G, P.M.x.mat.nuSigF gp (P.M.x.mmap c) * phi gp c) +
        ∑ gp ∈ range P.M.x.mat.G, P.M.x.mat.sigS g gp (P.M.x.mmap c) * phi gp c)
    have e1 : P.made phi g c = P.M.x.mat.chi g (P.M.x.mmap c) * ∑ gp ∈ range P.M.x.mat.G, P.M.x.mat.nuSigF gp (P.M.x.mmap c) * phi gp c := by
      unfold Prob.made fissionXs
      rw [mul_sum]
      exact sum_congr rfl fun gp _ => by rw [ha]; simp only [Bool.false_eq_true, if_false]; ring
    have e2 : ∀ gp, couple (P.fed k phi).M g gp c = P.M.x.mat.sigS g gp (P.M.x.mmap c) := fun gp => by
      unfold couple Prob.fed xs
      simp [ha]
    rw [e1]
    simp only [e2]

/-- Data that balance with `v` have `v` as a mode wherever they fill a domain between mirrors. -/
theorem C148_filled {sig : Nat → Nat → K} (hU : Uniform P w Sol sig m)
    (hs : ∀ g < P.M.x.mat.G, ∀ s < 2 * (P.W g).dim, (P.W g).bc s = .reflect) {d : Homog.Mat K} {n : Nat} (hf : Filled P sig d n) {k : K}
    {v : Nat → K} (h : Holds d n (1 / k) (fun _ => 0) v) : Eigen P w Sol k fun c _ => v c := by
  refine C131_kinf hU hs k v fun c hc i hi => ?_
  rw [hf.groups] at hc ⊢
  have e := h c hc
  rw [hf.tot c hc i hi, e, zero_add, add_comm, hf.forward]
  congr 1
  · exact sum_congr rfl fun c' hc' => by
      unfold xs
      rw [if_neg (by simp), hf.ss c hc c' (mem_range.1 hc') i hi]
  · congr 1
    rw [mul_sum]
    exact sum_congr rfl fun c' hc' => by
      unfold fissionXs
      rw [if_neg (by simp), hf.chi c hc i hi, hf.nsf c' (mem_range.1 hc') i hi]
      ring

/-- A mode of any arrangement between mirrors, the constants `homogenize` makes of it, and any domain between mirrors filled with them, with any
    mesh, quadrature and scheme: the integrated fluxes are a mode, with the same multiplication factor. -/
theorem C148_transport_partial {sig : Nat → Nat → K} (ok : OK P w Sol) (hU : Uniform P w Sol sig m) (hP : Paired P w Sol V fw m)
    (hs : ∀ g < P.M.x.mat.G, ∀ s < 2 * (P.W g).dim, (P.W g).bc s = .reflect) (ha : P.M.x.adjoint = false)
    (hsig : ∀ g < P.M.x.mat.G, ∀ c < P.M.x.N, sig g c = P.M.x.mat.sigT g (P.M.x.mmap c)) {k : K} {phi : Nat → Nat → K}
    (h : Eigen P w Sol k phi) (cg : List Nat) {X : Nat → K} (hX : Faithful (P.cell V phi cg) X) (o : Nat)
    {F' : Type} {P' : Prob F' K} {w' : Nat → K} {m' : K} {Sol' : Nat → (Nat → K) → Nat → Nat → (Nat → F') → (Nat → K) → Prop}
    {sig' : Nat → Nat → K} (hU' : Uniform P' w' Sol' sig' m') (hs' : ∀ g < P'.M.x.mat.G, ∀ s < 2 * (P'.W g).dim, (P'.W g).bc s = .reflect)
    (hf : Filled P' sig' (coarse (P.cell V phi cg) o) cg.length) (a : K) :
    Eigen P' w' Sol' k fun c _ => a * flux (P.cell V phi cg) c 0 := by
  refine C148_filled hU' hs' hf (Homog.holds_smul ?_ a)
  have e := Homog.C148_medium_partial _ o hX (1 / k) _ (C148_mode ok hU hP hs ha hsig h cg)
  simp only [sum_const_zero] at e
  exact e

end main

/-! ### The three geometries -/

section geom
open Detran.Sweep (Solves1 Solves2 Solves3 dd1 sd1 sc1 dd2 sd2 sc2 dd3 LinEq1 LinEq2 LinEq3 C27_schemes_linear)
open Detran.WGReflect (reciprocal1 reciprocal2 reciprocal3 recip_dd1 recip_sd1 recip_sc1 recip_dd2 recip_sd2 recip_sc2 recip_dd3)
variable {K : Type} [Field K] [LinearOrder K] [IsStrictOrderedRing K]

/-- 1-D between mirrors, any scheme in any cell, any mesh, any quadrature. -/
theorem C148_1D (M : MGSolve.Prob K) (hM : M.OK) (ha : M.x.adjoint = false) (ex : K → K) (mu w dx : Nat → K) (m : K) (na : Nat) (up : Bool)
    (order : List Nat) (hord : order.Perm (List.range 2)) (sch : Nat → Nat → Nat → K → K → K × K)
    (hsch : ∀ g a i, sch g a i = dd1 (mu a) (dx i) (M.x.mat.sigT g (M.x.mmap i)) ∨ sch g a i = sd1 (mu a) (dx i) (M.x.mat.sigT g (M.x.mmap i)) ∨
      sch g a i = sc1 ex (mu a) (dx i) (M.x.mat.sigT g (M.x.mmap i)))
    (hmu : ∀ a < na, 0 < mu a) (hdx : ∀ i < M.x.N, 0 < dx i) (hs : ∀ g < M.x.mat.G, ∀ i < M.x.N, 0 < M.x.mat.sigT g (M.x.mmap i))
    (hm : m * ∑ _o ∈ range 2, ∑ a ∈ range na, w a = 1) :
    let P := mg1 M sch w M.x.N na up (fun _ _ => .reflect) order (fun _ _ => m) (fun _ => [])
    ∀ k phi cg, Eigen P w (fun g q o a b p => Solves1 M.x.N (fun i => sch g a i (q i)) o b p) k phi →
      Balanced (P.cell dx phi cg) (1 / k) fun _ => 0 := by
  intro P k phi cg h
  have lin : ∀ g a i, LinEq1 (sch g a i) := fun g a i => by
    obtain ⟨l1, l2, l3, _⟩ := C27_schemes_linear ex (mu a) 0 0 (dx i) 0 0 (M.x.mat.sigT g (M.x.mmap i))
    rcases hsch g a i with e | e | e <;> rw [e] <;> assumption
  refine C148_mode (fw := fun _ _ a _ _ => mu a) (C125_ok1 M hM sch lin w na up _ order hord _ _ (fun _ _ => Iff.rfl) fun _ _ _ => by simp)
    (C131_1D M ex mu w dx (fun g i => M.x.mat.sigT g (M.x.mmap i)) m na up _ order sch hsch hmu hdx hs hm)
    ⟨fun g hg => reciprocal1 (sch g) w M.x.N na up _ order _ _ _ _ dx mu ?_, fun _ _ _ _ _ _ => rfl, fun e => by simp [e] at hm,
      fun _ _ _ _ => .inr rfl⟩ (fun _ _ _ _ => rfl) ha (fun _ _ _ _ => rfl) h cg
  intro a ha i hi
  have h1 := hmu a ha
  have h2 := hdx i hi
  have h3 := hs g hg i hi
  rcases hsch g a i with e | e | e <;> rw [e]
  · exact recip_dd1 _ _ _ h2.ne' (by positivity)
  · exact recip_sd1 _ _ _ h2.ne' (by positivity)
  · exact recip_sc1 _ _ _ _ h1.ne' h2.ne' h3.ne'

/-- 2-D between mirrors, any scheme in any cell. -/
theorem C148_2D (M : MGSolve.Prob K) (hM : M.OK) (ha : M.x.adjoint = false) (ex : K → K) (mu eta w dx dy : Nat → K) (m : K) (nx ny na : Nat)
    (hN : nx * ny = M.x.N) (up : Bool) (order : List Nat) (hord : order.Perm (List.range 4))
    (sch : Nat → Nat → Nat → Nat → K → K × K → K × (K × K))
    (hsch : ∀ g a i j, sch g a i j = dd2 (mu a) (eta a) (dx i) (dy j) (M.x.mat.sigT g (M.x.mmap (i + j * nx))) ∨
      sch g a i j = sd2 (mu a) (eta a) (dx i) (dy j) (M.x.mat.sigT g (M.x.mmap (i + j * nx))) ∨
      sch g a i j = sc2 ex (mu a) (eta a) (dx i) (dy j) (M.x.mat.sigT g (M.x.mmap (i + j * nx))))
    (hmu : ∀ a < na, 0 < mu a) (heta : ∀ a < na, 0 < eta a) (hdx : ∀ i < nx, 0 < dx i) (hdy : ∀ j < ny, 0 < dy j)
    (hs : ∀ g < M.x.mat.G, ∀ c < M.x.N, 0 < M.x.mat.sigT g (M.x.mmap c)) (hm : m * ∑ _o ∈ range 4, ∑ a ∈ range na, w a = 1) :
    let P := mg2 M sch w nx ny na up (fun _ _ => .reflect) order (fun _ _ => m) (fun _ => [])
    ∀ k phi cg, Eigen P w (fun g q o a b p => Solves2 nx ny (fun i j => sch g a i j (q (i + j * nx))) o b p) k phi →
      Balanced (P.cell (fun c => dx (c % nx) * dy (c / nx)) phi cg) (1 / k) fun _ => 0 := by
  intro P k phi cg h
  have lin : ∀ g a i j, LinEq2 (sch g a i j) := fun g a i j => by
    obtain ⟨_, _, _, l1, l2, l3, _⟩ := C27_schemes_linear ex (mu a) (eta a) 0 (dx i) (dy j) 0 (M.x.mat.sigT g (M.x.mmap (i + j * nx)))
    rcases hsch g a i j with e | e | e <;> rw [e] <;> assumption
  refine C148_mode (fw := fun _ side a i _ => if side < 2 then mu a * dy i else eta a * dx i)
    (C125_ok2 M hM sch lin w nx ny na up hN _ order hord _ _ (fun _ _ => Iff.rfl) fun _ _ _ => by simp)
    (C131_2D M ex mu eta w dx dy (fun g c => M.x.mat.sigT g (M.x.mmap c)) m nx ny na hN up _ order sch hsch hmu heta hdx hdy hs hm)
    ⟨fun g hg => reciprocal2 (sch g) w nx ny na up _ order _ _ _ _ _ (fun a j => mu a * dy j)
      (fun a i => eta a * dx i) ?_, fun _ _ _ _ _ _ => rfl, fun e => by simp [e] at hm, fun _ _ _ _ => .inr rfl⟩
    (fun _ _ _ _ => rfl) ha (fun _ _ _ _ => rfl) h cg
  intro a ha i hi j hj
  have h1 := hmu a ha
  have h2 := heta a ha
  have h3 := hdx i hi
  have h4 := hdy j hj
  have h5 := hs g hg (i + j * nx) (by
    rw [← hN]
    have := Nat.mul_le_mul_right nx (Nat.succ_le_of_lt hj)
    rw [Nat.succ_mul, Nat.mul_comm ny] at this
    omega)
  rw [Nat.add_mul_mod_self_right, Nat.mod_eq_of_lt hi, Nat.add_mul_div_right _ _ (by omega : 0 < nx),
    Nat.div_eq_of_lt hi, Nat.zero_add]
  rcases hsch g a i j with e | e | e <;> rw [e]
  · exact recip_dd2 _ _ _ _ _ h3.ne' h4.ne' (by positivity)
  · exact recip_sd2 _ _ _ _ _ h3.ne' h4.ne' (by positivity)
  · exact recip_sc2 _ _ _ _ _ _ h1.ne' h2.ne' h3.ne' h4.ne' h5.ne'

/-- 3-D between mirrors with diamond differencing. -/
theorem C148_3D (M : MGSolve.Prob K) (hM : M.OK) (ha : M.x.adjoint = false) (mu eta xi w dx dy dz : Nat → K) (m : K) (nx ny nz na : Nat)
    (hfit : nx ≤ 2 ^ 32) (hN : nx * ny * nz = M.x.N) (up : Bool) (order : List Nat) (hord : order.Perm (List.range 8))
    (hmu : ∀ a < na, 0 < mu a) (heta : ∀ a < na, 0 < eta a) (hxi : ∀ a < na, 0 < xi a)
    (hdx : ∀ i < nx, 0 < dx i) (hdy : ∀ j < ny, 0 < dy j) (hdz : ∀ k < nz, 0 < dz k)
    (hs : ∀ g < M.x.mat.G, ∀ c < M.x.N, 0 < M.x.mat.sigT g (M.x.mmap c)) (hm : m * ∑ _o ∈ range 8, ∑ a ∈ range na, w a = 1) :
    let sch := fun g a i j k => dd3 (mu a) (eta a) (xi a) (dx i) (dy j) (dz k) (M.x.mat.sigT g (M.x.mmap (i + j * nx + k * nx * ny)))
    let P := mg3 M sch w nx ny nz na up (fun _ _ => .reflect) order (fun _ _ => m) (fun _ => [])
    ∀ k phi cg, Eigen P w (fun g q o a b p => Solves3 nx ny nz (fun i j k => sch g a i j k (q (i + j * nx + k * nx * ny))) o b p) k phi →
      Balanced (P.cell (fun c => dx (c % (nx * ny) % nx) * dy (c % (nx * ny) / nx) * dz (c / (nx * ny))) phi cg) (1 / k) fun _ => 0 := by
  intro sch P k phi cg h
  have lin : ∀ g a i j k, LinEq3 (sch g a i j k) := fun g a i j k =>
    (C27_schemes_linear (fun x : K => x) (mu a) (eta a) (xi a) (dx i) (dy j) (dz k) _).2.2.2.2.2.2
  refine C148_mode (fw := fun _ side a i j => if side < 2 then mu a * (dy j * dz i) else
      if side < 4 then eta a * (dx j * dz i) else xi a * (dx j * dy i))
    (C125_ok3 M hM sch lin w nx ny nz na up hfit hN _ order hord _ _ (fun _ _ => Iff.rfl) fun _ _ _ => by simp)
    (C131_3D M mu eta xi w dx dy dz (fun g c => M.x.mat.sigT g (M.x.mmap c)) m nx ny nz na hN up _ order hmu heta hxi hdx hdy hdz hs hm)
    ⟨fun g hg => reciprocal3 (sch g) w nx ny nz na up _ order _ _ _ _ _ (fun a k j => mu a * (dy j * dz k))
      (fun a k i => eta a * (dx i * dz k)) (fun a j i => xi a * (dx i * dy j)) ?_, fun _ _ _ _ _ _ => rfl, fun e => by simp [e] at hm,
      fun _ _ _ _ => .inr rfl⟩ (fun _ _ _ _ => rfl) ha (fun _ _ _ _ => rfl) h cg
  intro a ha i hi j hj k hk
  have h1 := hmu a ha
  have h2 := heta a ha
  have h3 := hxi a ha
  have h4 := hdx i hi
  have h5 := hdy j hj
  have h6 := hdz k hk
  have hc : i + j * nx < nx * ny := by
    have := Nat.mul_le_mul_right nx (Nat.succ_le_of_lt hj)
    rw [Nat.succ_mul, Nat.mul_comm ny] at this
    omega
  have e3 : k * nx * ny = k * (nx * ny) := Nat.mul_assoc _ _ _
  have h7 := hs g hg (i + j * nx + k * nx * ny) (by
    rw [← hN, e3]
    have := Nat.mul_le_mul_right (nx * ny) (Nat.succ_le_of_lt hk)
    rw [Nat.succ_mul, Nat.mul_comm nz] at this
    omega)
  have e4 : (i + j * nx + k * nx * ny) % (nx * ny) = i + j * nx := by
    rw [e3, Nat.add_mul_mod_self_right, Nat.mod_eq_of_lt hc]
  have e5 : (i + j * nx + k * nx * ny) / (nx * ny) = k := by
    rw [e3, Nat.add_mul_div_right _ _ (by omega : 0 < nx * ny), Nat.div_eq_of_lt hc, Nat.zero_add]
  rw [e4, e5, Nat.add_mul_mod_self_right, Nat.mod_eq_of_lt hi, Nat.add_mul_div_right _ _ (by omega : 0 < nx),
    Nat.div_eq_of_lt hi, Nat.zero_add]
  exact recip_dd3 _ _ _ _ _ _ _ h4.ne' h5.ne' h6.ne' (by positivity)

end geom

end Detran.MGReflect

/-! ## Diffusion -/

namespace Detran.Diffusion
open Detran.Matrix Finset
open Detran.EigenPI (emits makes)
open Detran.Homog (Input Balanced Holds Faithful coarse flux groupsOf produced)

section main
variable {K : Type} [Field K] [LinearOrder K] [IsStrictOrderedRing K] {L L' : Loss K}

/-- What `homogenize` is given for one region: the problem's materials, the fluxes `x` and volumes, all groups from the first. -/
def Loss.cell (L : Loss K) (x : Nat → K) (cg : List Nat) : Input K where
  G := L.mat.G
  cells := L.M.size
  reg := fun _ => 0
  mat := L.mmap
  vol := L.M.volume
  phi := fun g c => x (c + g * L.M.size)
  cur := fun g c => x (c + g * L.M.size)
  cg := cg
  g0 := 0
  m := { st := fun r g => L.mat.sigT g r, sa := fun r g => L.mat.sigA g r, sf := fun r g => L.mat.sigF g r
         nsf := fun r g => L.mat.nuSigF g r, chi := fun r g => L.mat.chi g r, dc := fun r g => L.mat.diff g r
         ss := fun r g gp => L.mat.sigS g gp r }

/-- The problem has the data `d` of region 0 in every cell. -/
structure Filled (L : Loss K) (d : Homog.Mat K) (n : Nat) : Prop where
  groups : L.mat.G = n
  forward : L.adjoint = false
  tot : ∀ c < n, ∀ i < L.M.size, L.mat.sigT c (L.mmap i) = d.st 0 c
  nsf : ∀ c < n, ∀ i < L.M.size, L.mat.nuSigF c (L.mmap i) = d.nsf 0 c
  chi : ∀ c < n, ∀ i < L.M.size, L.mat.chi c (L.mmap i) = d.chi 0 c
  ss : ∀ c < n, ∀ c' < n, ∀ i < L.M.size, L.mat.sigS c c' (L.mmap i) = d.ss 0 c c'

theorem mirror_form (hal : ∀ leak < 6, L.al leak = 1) (g a : Nat) (ha : a < 3) (phi : Nat → K) : L.form g a phi (fun _ => 1) = 0 := by
  unfold Loss.form
  simp [dBoundary, hal (2 * a) (by omega), hal (2 * a + 1) (by omega)]

/-- Nothing leaves between mirrors. -/
theorem no_leak (h : Plain L) (hp : L.Pos) (hal : ∀ leak < 2 * L.M.dim, L.al leak = 1) (g : Nat) (phi : Nat → K) :
    ∑ c ∈ range L.M.size, L.M.volume c * ∑ leak ∈ range 6, L.faceTerm g phi c leak / L.M.width c (leak / 2) = 0 := by
  rcases Nat.eq_zero_or_pos L.M.size with h0 | h0
  · simp [h0]
  have ha : ∀ leak < 6, L.al leak = 1 := fun leak hl => by
    by_cases h2 : leak < 2 * L.M.dim
    · exact hal leak h2
    · exact h.ok.flat leak (by
        show 2 * L.M.dim ≤ leak
        omega) hl
  have k := leak_form L (fun a i => (hp.h a i).ne') h0 g phi fun _ => 1
  rw [mirror_form ha g 0 (by omega), mirror_form ha g 1 (by omega), mirror_form ha g 2 (by omega)] at k
  simpa only [mul_one, add_zero] using k

/-- Modes balance over a domain between mirrors, group by group. -/
theorem C148_diffusion_mode (h : Plain L) (hp : L.Pos) (hf : L.adjoint = false) (hal : ∀ leak < 2 * L.M.dim, L.al leak = 1)
    (srt : List (Trip K) → List (Trip K)) (hs : IsSort srt) {C : CSR K} {bs : List Bool} (hC : L.sys.make srt = .ok (some C, bs)) {k : K}
    {x : Nat → K} (hx : DiffEigen L C k x) (cg : List Nat) : Balanced (L.cell x cg) (1 / k) fun _ => 0 := by
  intro g hg
  have hg : g < L.mat.G := hg
  have n := no_leak h hp hal g fun c => x (c + g * L.M.size)
  have e : ∀ c ∈ range L.M.size, L.M.volume c * (L.mat.sigT g (L.mmap c) * x (c + g * L.M.size)) =
      L.M.volume c * (1 / k * born L x g c + ∑ gp ∈ range L.mat.G, L.mat.sigS g gp (L.mmap c) * x (c + gp * L.M.size)) -
      L.M.volume c * ∑ leak ∈ range 6, L.faceTerm g (fun c => x (c + g * L.M.size)) c leak / L.M.width c (leak / 2) := by
    intro c hc
    have e := plain_eigen h srt hs hC hx hg (mem_range.1 hc)
    rw [plain_lhs h, born_forward hf] at e
    have e2 : ∀ gp, L.scatXs g gp c = L.mat.sigS g gp (L.mmap c) := fun gp => by
      unfold Loss.scatXs
      rw [hf]
      rfl
    simp only [e2] at e
    linear_combination L.M.volume c * e
  rw [zero_add]
  refine (sum_congr rfl e).trans ?_
  rw [sum_sub_distrib, n, sub_zero]
  rfl

/-- Data that balance with `v` have `v` as a mode wherever they fill a domain between mirrors. -/
theorem C148_diffusion_filled (h : Plain L) (hp : L.Pos) (hal : ∀ leak < 2 * L.M.dim, L.al leak = 1)
    (srt : List (Trip K) → List (Trip K)) (hs : IsSort srt) {C : CSR K} {bs : List Bool} (hC : L.sys.make srt = .ok (some C, bs))
    {d : Homog.Mat K} {n : Nat} (hf : Filled L d n) {k : K} {v : Nat → K} (hv : Holds d n (1 / k) (fun _ => 0) v) :
    DiffEigen L C k fun p => v (p / L.M.size) := by
  refine flat_eigen h hp srt hs hC hal v fun c hc i hi => ?_
  rw [hf.groups] at hc
  have hn : 0 < L.M.size := by omega
  have e := hv c hc
  rw [born_forward hf.forward, hf.tot c hc i hi, e, zero_add]
  unfold born
  rw [hf.groups]
  congr 1
  · congr 1
    rw [hf.chi c hc i hi]
    congr 1
    exact sum_congr rfl fun c' hc' => by
      dsimp only
      rw [hf.nsf c' (mem_range.1 hc') i hi, Nat.add_mul_div_right _ _ hn, Nat.div_eq_of_lt hi, Nat.zero_add]
  · exact sum_congr rfl fun c' hc' => by
      rw [plain_inXs h, Loss.scatXs, hf.forward, if_neg (by simp), hf.ss c hc c' (mem_range.1 hc') i hi]

/-- The same in diffusion, whatever the diffusion coefficients of the filled domain. -/
theorem C148_diffusion_partial (h : Plain L) (hp : L.Pos) (hf : L.adjoint = false) (hal : ∀ leak < 2 * L.M.dim, L.al leak = 1)
    (srt : List (Trip K) → List (Trip K)) (hs : IsSort srt) {C : CSR K} {bs : List Bool} (hC : L.sys.make srt = .ok (some C, bs)) {k : K}
    {x : Nat → K} (hx : DiffEigen L C k x) (cg : List Nat) {X : Nat → K} (hX : Faithful (L.cell x cg) X) (o : Nat)
    (h' : Plain L') (hp' : L'.Pos) (hal' : ∀ leak < 2 * L'.M.dim, L'.al leak = 1) {C' : CSR K} {bs' : List Bool}
    (hC' : L'.sys.make srt = .ok (some C', bs')) (hF : Filled L' (coarse (L.cell x cg) o) cg.length) (a : K) :
    DiffEigen L' C' k fun p => a * flux (L.cell x cg) (p / L'.M.size) 0 := by
  refine C148_diffusion_filled (v := fun c => a * flux (L.cell x cg) c 0) h' hp' hal' srt hs hC' hF (Homog.holds_smul ?_ a)
  have e := Homog.C148_medium_partial _ o hX (1 / k) _ (C148_diffusion_mode h hp hf hal srt hs hC hx cg)
  simp only [sum_const_zero] at e
  exact e

/-- The two-step calculation: constants from a transport calculation of a cell, in a diffusion calculation. -/
theorem C148_two_step_partial {F : Type} {P : MGReflect.Prob F K} {w V : Nat → K} {m : K}
    {Sol : Nat → (Nat → K) → Nat → Nat → (Nat → F) → (Nat → K) → Prop} {fw : Nat → Nat → Nat → Nat → Nat → K}
    {sig : Nat → Nat → K} (ok : MGReflect.OK P w Sol) (hU : MGReflect.Uniform P w Sol sig m) (hP : MGReflect.Paired P w Sol V fw m)
    (hr : ∀ g < P.M.x.mat.G, ∀ s < 2 * (P.W g).dim, (P.W g).bc s = .reflect) (ha : P.M.x.adjoint = false)
    (hsig : ∀ g < P.M.x.mat.G, ∀ c < P.M.x.N, sig g c = P.M.x.mat.sigT g (P.M.x.mmap c)) {k : K} {phi : Nat → Nat → K}
    (h : MGReflect.Eigen P w Sol k phi) (cg : List Nat) {X : Nat → K} (hX : Faithful (P.cell V phi cg) X) (o : Nat)
    (h' : Plain L') (hp' : L'.Pos) (hal' : ∀ leak < 2 * L'.M.dim, L'.al leak = 1)
    (srt : List (Trip K) → List (Trip K)) (hs : IsSort srt) {C' : CSR K} {bs' : List Bool}
    (hC' : L'.sys.make srt = .ok (some C', bs')) (hF : Filled L' (coarse (P.cell V phi cg) o) cg.length) (a : K) :
    DiffEigen L' C' k fun p => a * flux (P.cell V phi cg) (p / L'.M.size) 0 := by
  refine C148_diffusion_filled (v := fun c => a * flux (P.cell V phi cg) c 0) h' hp' hal' srt hs hC' hF (Homog.holds_smul ?_ a)
  have e := Homog.C148_medium_partial _ o hX (1 / k) _ (MGReflect.C148_mode ok hU hP hr ha hsig h cg)
  simp only [sum_const_zero] at e
  exact e

end main

end Detran.Diffusion

/-! ## Where the code departs -/

namespace Detran.Homog
open Finset

/-- The full claim: any materials and any coarse groups; the same spectrum in all materials at that. -/
def C148Claim : Prop := ∀ (I : Input ℚ) (X : Nat → ℚ) (f : ℚ), I.g0 = 0 → I.cg.sum = I.G → (∀ i < I.cells, I.reg i = 0) →
  (∀ c < I.cg.length, flux I c 0 ≠ 0 ∧ 0 < reaction I I.m.st c 0) → (∀ i < I.cells, ∀ g < I.G, I.m.chi (I.mat i) g = X g) →
  Balanced I f (fun _ => 0) → Holds (coarse I 0) I.cg.length f (fun _ => 0) fun c => flux I c 0

/-- Fuel in which slow neutrons fission and fast ones are born: one cell with its fluxes, and the groups kept. -/
def thermal : Input ℚ where
  G := 2
  cells := 1
  reg := fun _ => 0
  mat := fun _ => 0
  vol := fun _ => 1
  phi := fun g _ => if g = 0 then 2 else 1
  cur := fun _ _ => 1
  cg := [1, 1]
  g0 := 0
  m := { st := fun _ _ => 1, sa := fun _ g => if g = 0 then 1 / 4 else 1 / 2, sf := fun _ g => if g = 0 then 0 else 1 / 4
         nsf := fun _ g => if g = 0 then 0 else 1 / 2, chi := fun _ g => if g = 0 then 1 else 0
         dc := fun _ _ => 1, ss := fun _ g gp => if g = gp then 1 / 2 else if g = 1 then 1 / 4 else 0 }

theorem thermal_balanced : Balanced thermal 2 fun _ => 0 := by
  unfold Balanced
  decide +kernel

/-- Where nothing fissions the code emits nothing: the births of such a group are lost. -/
theorem C148_births_lost {K : Type} [Field K] [LinearOrder K] (I : Input K) (o : Nat) (h0 : I.g0 = 0) (c ci : Nat)
    (h : ¬ 0 < reaction I I.m.sf c ci) : (coarse I o).chi ci c = 0 := by
  simp only [coarse, rate_eq I h0]
  exact if_neg fun k => h k.2

theorem C148_claim_fails : ¬ C148Claim := by
  intro h
  have := h thermal (fun g => if g = 0 then 1 else 0) 2 rfl rfl (fun _ _ => rfl) (by decide +kernel) (fun _ _ _ _ => rfl) thermal_balanced 0 (by decide)
  revert this
  decide +kernel

/-- The fuel multiplies by a half; its homogenised constants have no mode at all. -/
theorem C148_thermal (f : ℚ) (v : Nat → ℚ) (h : Holds (coarse thermal 0) 2 f (fun _ => 0) v) : v 0 = 0 ∧ v 1 = 0 := by
  have h0 := h 0 (by decide)
  have h1 := h 1 (by decide)
  have a0 : (coarse thermal 0).st 0 0 = 1 := by decide +kernel
  have a1 : (coarse thermal 0).st 0 1 = 1 := by decide +kernel
  have c0 : (coarse thermal 0).chi 0 0 = 0 := by decide +kernel
  have c1 : (coarse thermal 0).chi 0 1 = 0 := by decide +kernel
  have s00 : (coarse thermal 0).ss 0 0 0 = 1 / 2 := by decide +kernel
  have s01 : (coarse thermal 0).ss 0 0 1 = 0 := by decide +kernel
  have s10 : (coarse thermal 0).ss 0 1 0 = 1 / 4 := by decide +kernel
  have s11 : (coarse thermal 0).ss 0 1 1 = 1 / 2 := by decide +kernel
  rw [a0, c0, zero_mul, mul_zero, sum_range_succ, sum_range_one, s00, s01] at h0
  rw [a1, c1, zero_mul, mul_zero, sum_range_succ, sum_range_one, s10, s11] at h1
  have z : v 0 = 0 := by linarith
  exact ⟨z, by rw [z] at h1; linarith⟩

/-- Two fuels with different spectra, one of which makes most neutrons fast. -/
def mixed : Input ℚ where
  G := 2
  cells := 2
  reg := fun _ => 0
  mat := fun i => i
  vol := fun _ => 1
  phi := fun _ _ => 1
  cur := fun _ _ => 1
  cg := [1, 1]
  g0 := 0
  m := { st := fun m g => if m = 0 then (if g = 0 then 2 else 1) else 1, sa := fun _ _ => 1, sf := fun _ _ => 1
         nsf := fun m g => if m = 0 ∧ g = 0 then 3 / 2 else 1 / 2
         chi := fun m g => if m = g then 1 else 0, dc := fun _ _ => 1
         ss := fun m g gp => if m = 0 ∧ g = 1 ∧ gp = 1 then 1 else if m = 1 ∧ g = 0 ∧ gp = 0 then 1 else 0 }

/-- One spectrum is needed: with two, weighted with the neutrons made in the last group alone, the constants do not balance. -/
theorem C148_spectra : Balanced mixed 1 (fun _ => 0) ∧ ¬ Holds (coarse mixed 0) 2 1 (fun _ => 0) (fun c => flux mixed c 0) ∧
    (coarse mixed 0).chi 0 0 = 1 / 2 ∧
    (∑ i ∈ range 2, produced mixed i * mixed.m.chi (mixed.mat i) 0) / ∑ i ∈ range 2, produced mixed i = 2 / 3 := by
  refine ⟨?_, fun h => ?_, by decide +kernel, by decide +kernel⟩
  · unfold Balanced
    decide +kernel
  · have := h 0 (by decide)
    revert this
    decide +kernel

/-- Without neutrons made in the last fine group the spectrum is zero by zero. -/
theorem C148_last_group {K : Type} [Field K] [LinearOrder K] [IsStrictOrderedRing K] (I : Input K) (hG : 0 < I.G) (c ci : Nat)
    (h : ∀ i ∈ cellsOf I ci, I.m.nsf (I.mat i) (I.G - 1) = 0) : chiAcc I c ci = 0 ∧ fdAcc I c ci = 0 := by
  have z : ∀ i ∈ cellsOf I ci, tempFd I i = 0 := fun i hi => by rw [tempFd_last I i hG, h i hi, mul_zero, zero_mul]
  constructor
  · rw [chiAcc, acc_eq]
    exact sum_eq_zero fun g _ => sum_eq_zero fun i hi => by rw [z i hi, zero_mul]
  · unfold fdAcc
    split
    · rw [foldl_if_sum, zero_add]
      exact sum_eq_zero z
    · rfl

end Detran.Homog

/-! ## Concrete case -/

namespace Detran.Diffusion
open Detran.Matrix Finset
open Detran.Homog (Input Balanced Holds Faithful coarse flux)

/-- Fuel beside moderator, two groups. -/
def besideMat : Material.Mat ℚ :=
  { Material.Mat.new 2 2 with
    sigT := fun g m => if g = m then 1 else 2
    sigS := fun g gp m => if m = 0 then (if g = gp then 1 / 2 else if g = 1 then 1 / 4 else 0) else if g = 0 ∧ gp = 1 then 0 else 1
    diff := fun _ _ => 1
    nu := fun _ _ => 2
    sigF := fun g m => if m = 0 then (if g = 0 then 1 / 8 else 1 / 2) else 0
    chi := fun g _ => if g = 0 then 1 else 0 }

def beside : Loss ℚ where
  M := ⟨1, 2, 1, 1, fun _ _ => 1⟩
  mat := besideMat.finalize
  mmap := fun c => if c = 1 then 1 else 0
  al := fun _ => 1
  adjoint := false
  cutoff := 0
  fission := false
  sf := 0
  keff := 1

/-- Its fluxes: fast ones in the fuel, slow ones in the moderator. -/
def besideX (p : Nat) : ℚ := if p = 0 ∨ p = 3 then 2 else 1

theorem beside_plain : Plain beside := by
  refine ⟨⟨⟨⟨show 1 ≤ 3 by decide, ?_⟩, ⟨besideMat, rfl⟩, ?_, ?_, Nat.zero_le _⟩, rfl, fun _ _ => .inr ⟨rfl, fun _ _ _ => rfl⟩, fun _ _ _ => rfl⟩, rfl, rfl⟩
  · intro a h1 h2
    have h1 : 1 ≤ a := h1
    have : a = 1 ∨ a = 2 := by omega
    rcases this with rfl | rfl <;> rfl
  · intro g gp m
    show (0 : ℚ) ≤ if m = 0 then (if g = gp then 1 / 2 else if g = 1 then 1 / 4 else 0) else if g = 0 ∧ gp = 1 then 0 else 1
    split_ifs <;> norm_num
  · intro c _
    show (if c = 1 then 1 else 0) < 2
    split <;> decide

theorem beside_pos : beside.Pos := ⟨fun _ _ => one_pos, fun _ _ => one_pos, fun _ => ⟨by show (-1 : ℚ) ≤ 1; norm_num, le_rfl⟩⟩

theorem beside_mode (srt : List (Trip ℚ) → List (Trip ℚ)) (hs : IsSort srt) {C : CSR ℚ} {bs : List Bool}
    (hC : beside.sys.make srt = .ok (some C, bs)) : DiffEigen beside C (3 / 4) besideX := by
  refine (solves_iff (beside.fed _) (plain_fed beside_plain _) srt hs C bs hC _).2 fun g hg c hc => ?_
  refine Eq.trans ?_ (plain_rhs beside_plain _ hg hc).symm
  have : ∀ g < 2, ∀ c < 2, beside.lhs besideX g c = 1 / (3 / 4) * (beside.dens besideX c * EigenPI.emits beside.src g c) := by decide +kernel
  exact this g hg c hc

/-- What is asked of the fission data holds, with the groups kept and with one group. -/
theorem beside_faithful : Faithful (beside.cell besideX [1, 1]) (fun g => if g = 0 then 1 else 0) ∧
    Faithful (beside.cell besideX [2]) (fun g => if g = 0 then 1 else 0) :=
  ⟨⟨rfl, rfl, fun _ _ => rfl, by decide +kernel, fun _ _ _ _ _ => rfl, by decide +kernel, fun c hc => .inl (by
      have : ∀ c < 2, 0 < Homog.reaction (beside.cell besideX [1, 1]) (beside.cell besideX [1, 1]).m.sf c 0 := by decide +kernel
      exact this c hc)⟩,
    rfl, rfl, fun _ _ => rfl, by decide +kernel, fun _ _ _ _ _ => rfl, by decide +kernel, fun c hc => .inl (by
      have : ∀ c < 1, 0 < Homog.reaction (beside.cell besideX [2]) (beside.cell besideX [2]).m.sf c 0 := by decide +kernel
      exact this c hc)⟩

/-- One group of the homogenised constants on a 3 by 2 mesh with unequal widths. -/
def smearedMat : Material.Mat ℚ :=
  { Material.Mat.new 1 1 with
    sigT := fun _ _ => 4 / 3
    sigS := fun _ _ _ => 1
    diff := fun _ _ => 7
    nu := fun _ _ => 2
    sigF := fun _ _ => 1 / 8
    chi := fun _ _ => 1 }

def smeared : Loss ℚ where
  M := ⟨2, 3, 2, 1, fun _ i => 1 + i⟩
  mat := smearedMat.finalize
  mmap := fun _ => 0
  al := fun _ => 1
  adjoint := false
  cutoff := 0
  fission := false
  sf := 0
  keff := 1

theorem smeared_plain : Plain smeared := by
  refine ⟨⟨⟨⟨show 2 ≤ 3 by decide, ?_⟩, ⟨_, rfl⟩, fun _ _ _ => zero_le_one, fun _ _ => show 0 < 1 by decide, Nat.zero_le _⟩, rfl,
    fun _ _ => .inr ⟨rfl, fun _ _ _ => rfl⟩, fun _ _ _ => rfl⟩, rfl, rfl⟩
  intro a h1 h2
  have h1 : 2 ≤ a := h1
  have : a = 2 := by omega
  subst this
  rfl

/-- Fuel and moderator multiply by three quarters, and so do their one-group constants in another geometry. -/
example (srt : List (Trip ℚ) → List (Trip ℚ)) (hs : IsSort srt) {C C' : CSR ℚ} {bs bs' : List Bool}
    (hC : beside.sys.make srt = .ok (some C, bs)) (hC' : smeared.sys.make srt = .ok (some C', bs')) (a : ℚ) :
    DiffEigen beside C (3 / 4) besideX ∧
    DiffEigen smeared C' (3 / 4) (fun p => a * flux (beside.cell besideX [2]) (p / 6) 0) ∧ flux (beside.cell besideX [2]) 0 0 = 6 := by
  refine ⟨beside_mode srt hs hC, ?_, by decide +kernel⟩
  refine C148_diffusion_partial beside_plain beside_pos rfl (fun _ _ => rfl) srt hs hC (beside_mode srt hs hC) [2] beside_faithful.2 0
    smeared_plain ⟨fun _ i => ?_, fun _ _ => ?_, fun _ => ⟨?_, le_rfl⟩⟩ (fun _ _ => rfl) hC' ⟨rfl, rfl, ?_, ?_, ?_, ?_⟩ a
  · show (0 : ℚ) < 1 + i
    positivity
  · show (0 : ℚ) < 7
    norm_num
  · show (-1 : ℚ) ≤ 1
    norm_num
  all_goals decide +kernel

end Detran.Diffusion

namespace Detran.MGReflect
open Detran.Boundary (Bd BC Loc Enters Mirror)
open Detran.Sweep (Solves1 dd1)
open Detran.Homog (Input Balanced Holds Faithful coarse flux)
open Finset

/-- A slab of fuel beside a slab of scatterer, one group. -/
def slabsMat : Material.Mat ℚ :=
  { Material.Mat.new 2 1 with
    sigT := fun _ _ => 2
    sigS := fun _ _ m => if m = 0 then 6 / 7 else 8 / 5
    diff := fun _ _ => 1
    nu := fun _ _ => 2
    sigF := fun _ m => if m = 0 then 1 / 2 else 0
    chi := fun _ m => if m = 0 then 1 else 0 }

def slabsM : MGSolve.Prob ℚ where
  x := ⟨slabsMat.finalize, 2, fun c => if c = 1 then 1 else 0, false⟩
  q := fun _ _ => 0
  implicit := false
  scale := 1
  T := fun _ s c => s c / 2
  disc := fun _ _ => 0
  bnd := fun _ _ => 0

theorem slabsM_ok : slabsM.OK where
  fin := by
    unfold slabsM Material.Src.ready
    simp only
    rw [Material.C22_finalize_idempotent]
  nn := fun g gp m => by
    show (0 : ℚ) ≤ if m = 0 then 6 / 7 else 8 / 5
    split <;> norm_num
  map := fun c _ => by
    show (if c = 1 then 1 else 0) < 2
    split <;> decide
  add := fun g s t c => add_div _ _ _
  loc := fun g s t h c hc => by
    show s c / 2 = t c / 2
    rw [h c hc]

/-- Diamond differencing between mirrors. -/
def slabsP : Prob ℚ ℚ :=
  mg1 slabsM (fun _ _ _ => dd1 1 1 2) (fun _ => 1 / 2) 2 1 true (fun _ _ => .reflect) [0, 1] (fun _ _ => 1) (fun _ => [])

def slabsPhi : Nat → Nat → ℚ := fun _ c => if c = 0 then 7 / 2 else 5 / 2

theorem slabs_mode : Eigen slabsP (fun _ => 1 / 2) (fun _ q o _ b p => Solves1 2 (fun i => dd1 1 1 2 (q i)) o b p) (7 / 10) slabsPhi := by
  intro g hg
  obtain rfl : g = 0 := Nat.lt_one_iff.1 hg
  refine ⟨fun s _ _ => if s = 0 then 4 else 2, fun o _ c => if o = 0 then (if c = 0 then 4 else 3) else if c = 0 then 3 else 2, ?_, ?_, ?_, ?_, ?_⟩
  · intro o ho a ha
    have ho : o < 2 := ho
    obtain rfl : a = 0 := Nat.lt_one_iff.1 ha
    interval_cases o
    · exact ⟨fun p => if p = 2 then 2 else 4, by decide +kernel, by decide +kernel, by decide +kernel⟩
    · exact ⟨fun p => if p = 2 then 4 else 2, by decide +kernel, by decide +kernel, by decide +kernel⟩
  · intro c hc
    have hc : c < 2 := hc
    interval_cases c <;> decide +kernel
  · intro side h hv
    cases hv
  · intro side h ps hv
    cases hv
  · intro side h _ o ho he o' hm a ha i j hi
    exact sub_self _

/-- The fluxes balance over the slabs, and the homogenised constants have their factor: (7/12) / (2 - 7/6) = 7/10. -/
example : Balanced (slabsP.cell (fun _ => 1) slabsPhi [1]) (10 / 7) (fun _ => 0) ∧
    Faithful (slabsP.cell (fun _ => 1) slabsPhi [1]) (fun _ => 1) ∧
    Holds (coarse (slabsP.cell (fun _ => 1) slabsPhi [1]) 0) 1 (10 / 7) (fun _ => 0) (fun _ => 6) ∧
    (coarse (slabsP.cell (fun _ => 1) slabsPhi [1]) 0).st 0 0 = 2 ∧ (coarse (slabsP.cell (fun _ => 1) slabsPhi [1]) 0).ss 0 0 0 = 7 / 6 ∧
    (coarse (slabsP.cell (fun _ => 1) slabsPhi [1]) 0).nsf 0 0 = 7 / 12 := by
  have hb : Balanced (slabsP.cell (fun _ => 1) slabsPhi [1]) (10 / 7) (fun _ => 0) := by
    have := C148_1D slabsM slabsM_ok rfl (fun x => x) (fun _ => 1) (fun _ => 1 / 2) (fun _ => 1) 1 1 true [0, 1] (List.Perm.refl _) (fun _ _ _ => dd1 1 1 2)
      (fun _ _ _ => .inl rfl) (fun _ _ => one_pos) (fun _ _ => one_pos) (fun _ _ _ _ => by show (0 : ℚ) < 2; norm_num) (by decide +kernel)
      (7 / 10) slabsPhi [1] slabs_mode
    rw [show (10 / 7 : ℚ) = 1 / (7 / 10) by norm_num]
    exact this
  have hF : Faithful (slabsP.cell (fun _ => 1) slabsPhi [1]) (fun _ => 1) := by
    refine ⟨rfl, rfl, fun _ _ => rfl, by decide +kernel, ?_, by decide +kernel, fun c hc => .inl ?_⟩
    · intro i hi
      have hi : i < 2 := hi
      interval_cases i
      · intro _ g _
        rfl
      · rintro ⟨gp, hgp, h⟩
        obtain rfl : gp = 0 := Nat.lt_one_iff.1 hgp
        exact absurd (by decide +kernel) h
    · obtain rfl : c = 0 := Nat.lt_one_iff.1 hc
      decide +kernel
  refine ⟨hb, hF, ?_, by decide +kernel, by decide +kernel, by decide +kernel⟩
  have e := Homog.C148_medium_partial _ 0 hF _ _ hb
  simp only [sum_const_zero] at e
  have ef : flux (slabsP.cell (fun _ => 1) slabsPhi [1]) 0 0 = 6 := by decide +kernel
  intro c hc
  have hc0 : c = 0 := Nat.lt_one_iff.1 hc
  subst hc0
  have e0 := e 0 (by decide)
  simp only [show (slabsP.cell (fun _ => (1 : ℚ)) slabsPhi [1]).cg.length = 1 from rfl, sum_range_one, ef] at e0 ⊢
  exact e0

end Detran.MGReflect
