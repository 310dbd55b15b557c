import Verif.Props.MGKernel

/-!
# When coupled groups determine the fluxes at the sides of the domain (C154)
-/

namespace Detran.MGReflect

open Detran.Sweep
open Detran.Boundary (Bd BC)
open Detran.WGReflect (Solution Solved AgreeCells AgreeSide planeSol planeProb brickSol brickSch prob3 rows cols cell_dd2 cell_sd2
  cell_sc2 cell_dd1 cell_sd1 cell_sc1 exp_ok alternating dissipates1)
open Detran.MGSolve
open Finset

/-! ## Specification -/

section spec
variable {F K : Type} [Field K] [LinearOrder K]

/-- In every group, the angular fluxes `bd` at the sides and `psi` in the cells satisfy the cell equations with the external
    source and the scatter and fission of the fluxes `phi` of all groups, satisfy the side conditions, and sum to `phi`. -/
def AllSolved (P : Prob F K) (w : Nat → K) (Sol : Nat → (Nat → K) → Nat → Nat → (Nat → F) → (Nat → K) → Prop)
    (phi : Nat → Nat → K) (bd : Nat → Bd F) (psi : Nat → Nat → Nat → Nat → K) : Prop :=
  ∀ g < P.M.x.mat.G, Solution (P.W g) w (Sol g) (P.src phi g) (phi g) (fun _ => 0) (fun _ => 0) (bd g) (psi g)

end spec

/-! ## A group among the others, as a group with a given source -/

section groups
variable {F K : Type} [Field K] [LinearOrder K] [IsStrictOrderedRing K]
variable {P : Prob F K} {w : Nat → K} {V : Nat → K} {sig r : Nat → Nat → K} {u : Nat → K} {m rho : K}
  {fw : Nat → Nat → Nat → Nat → Nat → K} {Sol : Nat → (Nat → K) → Nat → Nat → (Nat → F) → (Nat → K) → Prop}

/-- The group with the source of given fluxes and no scattering of its own. -/
def alone (P : Prob F K) (phi : Nat → Nat → K) (g : Nat) : WGReflect.Prob F K :=
  { P.W g with
    scat := fun f c => (fun _ => (0 : K)) c * f c
    fixed := P.M.source phi g }

theorem alone_solved (ok : OK P w Sol) (hd : ∀ g < P.M.x.mat.G, (P.W g).disc = []) {phi phi' : Nat → Nat → K}
    {bd : Nat → Bd F} {psi : Nat → Nat → Nat → Nat → K} (h : AllSolved P w Sol phi bd psi)
    (e : ∀ g < P.M.x.mat.G, ∀ c < P.M.x.N, phi g c = phi' g c) {g : Nat} (hg : g < P.M.x.mat.G) :
    Solved (alone P phi' g) w (Sol g) (phi g) (bd g) (psi g) := by
  have k := h g hg
  refine ⟨fun o ho a ha => sol_congr (ok.sw g hg) ho (k.cells o ho a ha) fun c hc => ?_, k.flux, k.vacuum, k.given, k.reflect⟩
  rw [ok.cells g] at hc
  have hs : P.M.source phi g c = P.M.source phi' g c := sub_eq_zero.1 (by
    rw [source_diff]
    exact sum_eq_zero fun gp hgp => by rw [e gp (mem_range.1 hgp) c hc, sub_self, mul_zero])
  change (P.M.source phi' g c + 0 * (WGReflect.Prob.moments _ _ c)) * (P.W g).mtod o a
    = P.M.source phi g c * (P.W g).mtod o a + ((P.W g).disc.map fun d => d o a c).sum
  rw [hd g hg, hs]
  simp

/-- Two solutions of coupled groups solve every group with one and the same source. -/
theorem alone_both (ok : OK P w Sol) (hC : Coupled P w V sig r u m rho) (D : AllDissipate P Sol V sig fw)
    {phi phi' : Nat → Nat → K} {bd bd' : Nat → Bd F} {psi psi' : Nat → Nat → Nat → Nat → K}
    (h1 : AllSolved P w Sol phi bd psi) (h2 : AllSolved P w Sol phi' bd' psi') :
    (∀ g < P.M.x.mat.G, ∀ c < P.M.x.N, phi g c = phi' g c) ∧ ∀ g < P.M.x.mat.G,
      Solved (alone P phi g) w (Sol g) (phi g) (bd g) (psi g) ∧ Solved (alone P phi g) w (Sol g) (phi' g) (bd' g) (psi' g) := by
  have e := C129_unique ok hC D phi phi' (fun g hg => ⟨_, _, h1 g hg⟩) fun g hg => ⟨_, _, h2 g hg⟩
  exact ⟨e, fun g hg => ⟨alone_solved ok hC.disc h1 (fun _ _ _ _ => rfl) hg,
    alone_solved ok hC.disc h2 (fun g hg c hc => (e g hg c hc).symm) hg⟩⟩

/-- Coupled groups determine their angular fluxes in the cells, and at all sides that do not reflect. -/
theorem C154_open_sides (ok : OK P w Sol) (hC : Coupled P w V sig r u m rho) (D : AllDissipate P Sol V sig fw)
    {phi phi' : Nat → Nat → K} {bd bd' : Nat → Bd F} {psi psi' : Nat → Nat → Nat → Nat → K}
    (h1 : AllSolved P w Sol phi bd psi) (h2 : AllSolved P w Sol phi' bd' psi') (g : Nat) (hg : g < P.M.x.mat.G) :
    (∀ c < P.M.x.N, phi g c = phi' g c) ∧ AgreeCells (P.W g) (psi g) (psi' g) ∧
      ∀ side < 2 * (P.W g).dim, (P.W g).bc side ≠ .reflect → AgreeSide (P.W g) side (bd g) (bd' g) := by
  obtain ⟨e, k⟩ := alone_both ok hC D h1 h2
  obtain ⟨k1, k2⟩ := k g hg
  have hs := ok.sw g hg
  exact ⟨e g hg, WGReflect.C149_open_sides (P := alone P phi g) (V := V) (sig := sig g) (ss := fun _ => 0) (m := m) (r := 0)
    (fw := fw g) ⟨hs.d1, hs.d3, hs.order, hs.face, hs.other, hs.inc, hs.solves, hs.lin, hs.det⟩
    (by
      have b := bareProb_subcritical ok hC hg
      exact ⟨b.weight, b.mtod, b.norm, b.vol, b.tot, fun _ _ _ => rfl, fun c hc => by rw [abs_zero, zero_mul], le_rfl, one_pos,
        hC.disc g hg, b.np⟩)
    ⟨(D g hg).pos, (D g hg).energy⟩ k1 k2⟩

end groups

/-! ## Slabs -/

section geom
variable {K : Type} [Field K] [LinearOrder K] [IsStrictOrderedRing K]

/-- In slabs coupled groups determine the fluxes at both sides, whatever the sides do. -/
theorem C154_1D (M : MGSolve.Prob K) (hM : M.OK) (mu w dx : Nat → K) (sig r : Nat → Nat → K) (u : Nat → K)
    (m rho : K) (hW : Weak M sig r u rho) (na : Nat) (up : Bool) (bc : Nat → Nat → BC K) (order : List Nat)
    (hord : order.Perm (List.range 2)) (sch : Nat → Nat → Nat → K → K → K × K)
    (hsch : ∀ g a i, sch g a i = dd1 (mu a) (dx i) (sig g i) ∨ sch g a i = sd1 (mu a) (dx i) (sig g i))
    (hmu : ∀ a < na, 0 < mu a) (hw : ∀ a < na, 0 < w a) (hm : m * ∑ _o ∈ range 2, ∑ a ∈ range na, w a = 1)
    (hdx : ∀ i < M.x.N, 0 < dx i) (hr : ∀ g s, bc g s = .reflect ↔ bc 0 s = .reflect)
    (hp : ∀ g, ∀ s < 2, bc g s ≠ .periodic) (hn : 0 < M.x.N) {phi phi' : Nat → Nat → K} {bd bd' : Nat → Bd K}
    {psi psi' : Nat → Nat → Nat → Nat → K} :
    let P := mg1 M sch w M.x.N na up bc order (fun _ _ => m) (fun _ => [])
    let Sol := fun g q o a b p => Solves1 M.x.N (fun i => sch g a i (q i)) o b p
    AllSolved P w Sol phi bd psi → AllSolved P w Sol phi' bd' psi' →
      ∀ g < M.x.mat.G, ∀ side < 2, ∀ o < 2, ∀ a < na, bd g side o a = bd' g side o a := by
  intro P Sol h1 h2 g hg
  have lin : ∀ g a i, LinEq1 (sch g a i) := fun g a i => by
    obtain ⟨l1, l2, _⟩ := C27_schemes_linear (fun x : K => x) (mu a) 0 0 (dx i) 0 0 (sig g i)
    rcases hsch g a i with e | e <;> rw [e] <;> assumption
  obtain ⟨k1, k2⟩ := (alone_both (C125_ok1 M hM sch lin w na up bc order hord _ _ hr hp) (V := dx) (sig := sig) (r := r) (u := u)
    (m := m) (rho := rho) (fw := fun _ _ a _ _ => mu a / 2)
    ⟨fun _ _ => hw, fun _ _ _ _ _ _ => rfl, fun _ _ => hm, fun _ _ => rfl, hdx, hW.tot, hW.rnn, hW.ratio, hW.upos,
      hW.row, hW.rpos, hW.less⟩ (fun g hg => dissipates1 (sch g) w M.x.N na up (bc g) order _ _ _ _ dx (sig g)
        (fun a => mu a / 2) (fun a ha => half_pos (hmu a ha)) fun a ha i hi => by
          rcases hsch g a i with e | e <;> rw [e]
          · exact cell_dd1 _ _ _ (hmu a ha) (hdx i hi) (hW.tot g hg i hi)
          · exact cell_sd1 _ _ _ (hmu a ha) (hdx i hi) (hW.tot g hg i hi)) h1 h2).2 g hg
  exact WGReflect.C149_1D mu w dx (sig g) (fun _ => 0) _ m 0 M.x.N na up (bc g) order hord (sch g) (hsch g) hmu hw hm hdx
    (hW.tot g hg) (fun _ _ => by rw [abs_zero, zero_mul]) le_rfl one_pos (hp g) hn k1 k2

/-- With step characteristics. -/
theorem C154_1D_sc (M : MGSolve.Prob ℝ) (hM : M.OK) (mu w dx : Nat → ℝ) (sig r : Nat → Nat → ℝ) (u : Nat → ℝ)
    (m rho : ℝ) (hW : Weak M sig r u rho) (na : Nat) (up : Bool) (bc : Nat → Nat → BC ℝ) (order : List Nat)
    (hord : order.Perm (List.range 2)) (hmu : ∀ a < na, 0 < mu a) (hw : ∀ a < na, 0 < w a)
    (hm : m * ∑ _o ∈ range 2, ∑ a ∈ range na, w a = 1)
    (hdx : ∀ i < M.x.N, 0 < dx i) (hr : ∀ g s, bc g s = .reflect ↔ bc 0 s = .reflect)
    (hp : ∀ g, ∀ s < 2, bc g s ≠ .periodic) (hn : 0 < M.x.N) {phi phi' : Nat → Nat → ℝ} {bd bd' : Nat → Bd ℝ}
    {psi psi' : Nat → Nat → Nat → Nat → ℝ} :
    let sch := fun g a i => sc1 Real.exp (mu a) (dx i) (sig g i)
    let P := mg1 M sch w M.x.N na up bc order (fun _ _ => m) (fun _ => [])
    let Sol := fun g q o a b p => Solves1 M.x.N (fun i => sch g a i (q i)) o b p
    AllSolved P w Sol phi bd psi → AllSolved P w Sol phi' bd' psi' →
      ∀ g < M.x.mat.G, ∀ side < 2, ∀ o < 2, ∀ a < na, bd g side o a = bd' g side o a := by
  intro sch P Sol h1 h2 g hg
  have lin : ∀ g a i, LinEq1 (sc1 Real.exp (mu a) (dx i) (sig g i)) := fun g a i =>
    (C27_schemes_linear Real.exp (mu a) 0 0 (dx i) 0 0 (sig g i)).2.2.1
  obtain ⟨k1, k2⟩ := (alone_both (C125_ok1 M hM sch lin w na up bc order hord _ _ hr hp) (V := dx) (sig := sig) (r := r) (u := u)
    (m := m) (rho := rho) (fw := fun _ _ a _ _ => mu a / 2)
    ⟨fun _ _ => hw, fun _ _ _ _ _ _ => rfl, fun _ _ => hm, fun _ _ => rfl, hdx, hW.tot, hW.rnn, hW.ratio, hW.upos,
      hW.row, hW.rpos, hW.less⟩ (fun g hg => dissipates1 (sch g) w M.x.N na up (bc g) order _ _ _ _ dx (sig g)
        (fun a => mu a / 2) (fun a ha => half_pos (hmu a ha)) fun a ha i hi => by
          have c1 := hmu a ha
          have c2 := hdx i hi
          have c3 := hW.tot g hg i hi
          obtain ⟨k1, k2⟩ := exp_ok (sig g i * dx i / mu a) (by positivity)
          exact cell_sc1 Real.exp _ _ _ c1 c2 c3 k1 k2) h1 h2).2 g hg
  exact WGReflect.C149_1D_sc mu w dx (sig g) (fun _ => 0) _ m 0 M.x.N na up (bc g) order hord hmu hw hm hdx
    (hW.tot g hg) (fun _ _ => by rw [abs_zero, zero_mul]) le_rfl one_pos (hp g) hn k1 k2

/-! ## Rectangles -/

/-- On rectangles with step differencing. -/
theorem C154_2D_step {M : MGSolve.Prob K} {mu eta w dx dy : Nat → K} {sig r : Nat → Nat → K} {u : Nat → K} {m rho : K}
    {nx ny na : Nat} {bc : Nat → Nat → BC (Nat → K)} (hP : Planes M mu eta w dx dy sig r u m rho nx ny na bc) (up : Bool)
    (order : List Nat) (hord : order.Perm (List.range 4)) {phi phi' : Nat → Nat → K} {bd bd' : Nat → Bd (Nat → K)}
    {psi psi' : Nat → Nat → Nat → Nat → K} :
    let sch := fun g a i j => sd2 (mu a) (eta a) (dx i) (dy j) (sig g (i + j * nx))
    let P := planesProb M sch w m nx ny na up bc order
    AllSolved P w (fun g => planeSol (sch g) nx ny) phi bd psi → AllSolved P w (fun g => planeSol (sch g) nx ny) phi' bd' psi' →
      ∀ g < M.x.mat.G, ∀ side < 4, ∀ o < 4, ∀ a < na, ∀ k < (if side < 2 then ny else nx), bd g side o a k = bd' g side o a k := by
  intro sch P h1 h2 g hg
  obtain ⟨ok, V, fw, hC, D⟩ := planes_facts hP up order hord sch
    (fun g a i j => (C27_schemes_linear (fun x : K => x) (mu a) (eta a) 0 (dx i) (dy j) 0 _).2.2.2.2.1)
    (fun g a i j c1 c2 c3 c4 c5 => cell_sd2 _ _ _ _ _ c1 c2 c3 c4 c5)
  obtain ⟨k1, k2⟩ := (alone_both ok hC D h1 h2).2 g hg
  exact WGReflect.C149_2D_step (hP.group hg) _ up order hord (sch g) (fun _ _ _ => rfl) k1 k2

/-- With step characteristics. -/
theorem C154_2D_sc {M : MGSolve.Prob ℝ} {mu eta w dx dy : Nat → ℝ} {sig r : Nat → Nat → ℝ} {u : Nat → ℝ} {m rho : ℝ}
    {nx ny na : Nat} {bc : Nat → Nat → BC (Nat → ℝ)} (hP : Planes M mu eta w dx dy sig r u m rho nx ny na bc) (up : Bool)
    (order : List Nat) (hord : order.Perm (List.range 4)) {phi phi' : Nat → Nat → ℝ} {bd bd' : Nat → Bd (Nat → ℝ)}
    {psi psi' : Nat → Nat → Nat → Nat → ℝ} :
    let sch := fun g a i j => sc2 Real.exp (mu a) (eta a) (dx i) (dy j) (sig g (i + j * nx))
    let P := planesProb M sch w m nx ny na up bc order
    AllSolved P w (fun g => planeSol (sch g) nx ny) phi bd psi → AllSolved P w (fun g => planeSol (sch g) nx ny) phi' bd' psi' →
      ∀ g < M.x.mat.G, ∀ side < 4, ∀ o < 4, ∀ a < na, ∀ k < (if side < 2 then ny else nx), bd g side o a k = bd' g side o a k := by
  intro sch P h1 h2 g hg
  obtain ⟨ok, V, fw, hC, D⟩ := planes_facts hP up order hord sch
    (fun g a i j => (C27_schemes_linear Real.exp (mu a) (eta a) 0 (dx i) (dy j) 0 _).2.2.2.2.2.1)
    (fun g a i j c1 c2 c3 c4 c5 => cell_sc2 _ _ _ _ _ c1 c2 c3 c4 c5)
  obtain ⟨k1, k2⟩ := (alone_both ok hC D h1 h2).2 g hg
  exact WGReflect.C149_2D_sc (hP.group hg) _ up order hord (sch g) (fun _ _ _ => rfl) k1 k2

/-- With diamond differencing if a side does not reflect (missing: four mirrors, where it fails). -/
theorem C154_2D_partial {M : MGSolve.Prob K} {mu eta w dx dy : Nat → K} {sig r : Nat → Nat → K} {u : Nat → K} {m rho : K}
    {nx ny na : Nat} {bc : Nat → Nat → BC (Nat → K)} (hP : Planes M mu eta w dx dy sig r u m rho nx ny na bc)
    (hopen : ∃ side < 4, bc 0 side ≠ .reflect) (up : Bool)
    (order : List Nat) (hord : order.Perm (List.range 4)) {phi phi' : Nat → Nat → K} {bd bd' : Nat → Bd (Nat → K)}
    {psi psi' : Nat → Nat → Nat → Nat → K} :
    let sch := fun g a i j => dd2 (mu a) (eta a) (dx i) (dy j) (sig g (i + j * nx))
    let P := planesProb M sch w m nx ny na up bc order
    AllSolved P w (fun g => planeSol (sch g) nx ny) phi bd psi → AllSolved P w (fun g => planeSol (sch g) nx ny) phi' bd' psi' →
      ∀ g < M.x.mat.G, ∀ side < 4, ∀ o < 4, ∀ a < na, ∀ k < (if side < 2 then ny else nx), bd g side o a k = bd' g side o a k := by
  intro sch P h1 h2 g hg
  obtain ⟨ok, V, fw, hC, D⟩ := planes_facts hP up order hord sch
    (fun g a i j => (C27_schemes_linear (fun x : K => x) (mu a) (eta a) 0 (dx i) (dy j) 0 _).2.2.2.1)
    (fun g a i j c1 c2 c3 c4 c5 => cell_dd2 _ _ _ _ _ c1 c2 c3 c4 c5)
  obtain ⟨k1, k2⟩ := (alone_both ok hC D h1 h2).2 g hg
  obtain ⟨s, hs, hb⟩ := hopen
  exact WGReflect.C149_2D_partial (hP.group hg) ⟨s, hs, fun e => hb ((hP.same g s).1 e)⟩ _ up order hord (sch g)
    (fun _ _ _ => rfl) k1 k2

/-- Between four mirrors they determine them up to one number per group and angle, the amount of an alternating pattern;
    any amounts are possible. -/
theorem C154_mirrors {M : MGSolve.Prob K} {mu eta w dx dy : Nat → K} {sig r : Nat → Nat → K} {u : Nat → K} {m rho : K}
    {nx ny na : Nat} {bc : Nat → Nat → BC (Nat → K)} (hP : Planes M mu eta w dx dy sig r u m rho nx ny na bc)
    (hr : ∀ side < 4, bc 0 side = .reflect) (up : Bool)
    (order : List Nat) (hord : order.Perm (List.range 4)) {phi : Nat → Nat → K} {bd : Nat → Bd (Nat → K)}
    {psi : Nat → Nat → Nat → Nat → K} :
    let sch := fun g a i j => dd2 (mu a) (eta a) (dx i) (dy j) (sig g (i + j * nx))
    let P := planesProb M sch w m nx ny na up bc order
    AllSolved P w (fun g => planeSol (sch g) nx ny) phi bd psi →
      (∀ A : Nat → Nat → K, AllSolved P w (fun g => planeSol (sch g) nx ny) phi
        (fun g side o a k => bd g side o a k + A g a * alternating (mu a) (eta a) dx dy nx ny side o k) psi) ∧
      ∀ phi' bd' psi', AllSolved P w (fun g => planeSol (sch g) nx ny) phi' bd' psi' → ∀ g < M.x.mat.G, ∀ a < na, ∃ A,
        ∀ side < 4, ∀ o < 4, ∀ k < (if side < 2 then ny else nx),
          bd' g side o a k = bd g side o a k + A * alternating (mu a) (eta a) dx dy nx ny side o k := by
  intro sch P h1
  obtain ⟨ok, V, fw, hC, D⟩ := planes_facts hP up order hord sch
    (fun g a i j => (C27_schemes_linear (fun x : K => x) (mu a) (eta a) 0 (dx i) (dy j) 0 _).2.2.2.1)
    (fun g a i j c1 c2 c3 c4 c5 => cell_dd2 _ _ _ _ _ c1 c2 c3 c4 c5)
  constructor
  · intro A g hg
    have k := WGReflect.C149_undetermined mu eta w dx dy (sig g) (M.source phi g) (fun f c => (fun _ => (0 : K)) c * f c)
      (fun _ _ => m) [] nx ny na up (bc g) order hord (fun s hs => (hP.same g s).2 (hr s hs)) (phi g) (bd g) (psi g) (A g)
      (alone_solved ok hC.disc h1 (fun _ _ _ _ => rfl) hg)
    refine ⟨fun o ho a ha => sol_congr (ok.sw g hg) ho (k.cells o ho a ha) fun c _ => ?_, k.flux, k.vacuum, k.given, k.reflect⟩
    change M.source phi g c * m + 0 = (M.source phi g c + 0 * _) * m
    ring
  · intro phi' bd' psi' h2 g hg
    obtain ⟨k1, k2⟩ := (alone_both ok hC D h1 h2).2 g hg
    exact WGReflect.C149_mirrors (hP.group hg) (fun s hs => (hP.same g s).2 (hr s hs)) _ up order hord (sch g)
      (fun _ _ _ => rfl) k2 k1

/-! ## Boxes -/

/-- In boxes with diamond differencing if sides across two directions do not reflect (missing: mirrors across two
    directions, where it fails for one group already, C149). -/
theorem C154_3D_partial {M : MGSolve.Prob K} {mu eta xi w dx dy dz : Nat → K} {sig r : Nat → Nat → K} {u : Nat → K} {m rho : K}
    {nx ny nz na : Nat} {bc : Nat → Nat → BC (Nat → Nat → K)} (hP : Bricks M mu eta xi w dx dy dz sig r u m rho nx ny nz na bc)
    (hopen : ∃ s < 6, ∃ t < 6, bc 0 s ≠ .reflect ∧ bc 0 t ≠ .reflect ∧ s / 2 ≠ t / 2) (up : Bool) (order : List Nat)
    (hord : order.Perm (List.range 8)) {phi phi' : Nat → Nat → K} {bd bd' : Nat → Bd (Nat → Nat → K)}
    {psi psi' : Nat → Nat → Nat → Nat → K} :
    let P := bricksProb M mu eta xi w dx dy dz sig m nx ny nz na up bc order
    let Sol := fun g => brickSol (brickSch mu eta xi dx dy dz (sig g) nx ny) nx ny nz
    AllSolved P w Sol phi bd psi → AllSolved P w Sol phi' bd' psi' → ∀ g < M.x.mat.G, ∀ side < 6, ∀ o < 8, ∀ a < na,
      ∀ i < rows ny nz side, ∀ j < cols nx ny side, bd g side o a i j = bd' g side o a i j := by
  intro P Sol h1 h2 g hg
  obtain ⟨ok, V, fw, hC, D⟩ := bricks_facts hP up order hord
  obtain ⟨k1, k2⟩ := (alone_both ok hC D h1 h2).2 g hg
  obtain ⟨s, hs, t, ht, e1, e2, e3⟩ := hopen
  exact WGReflect.C149_3D_partial (hP.group hg)
    ⟨s, hs, t, ht, fun e => e1 ((hP.same g s).1 e), fun e => e2 ((hP.same g t).1 e), e3⟩ _ up order hord k1 k2

end geom

/-! ## The claim without its exception -/

/-- On every rectangle, coupled groups determine the fluxes at the sides with diamond differencing. -/
def C154Claim : Prop :=
  ∀ (M : MGSolve.Prob ℚ) (mu eta w dx dy : Nat → ℚ) (sig r : Nat → Nat → ℚ) (u : Nat → ℚ) (m rho : ℚ) (nx ny na : Nat)
    (bc : Nat → Nat → BC (Nat → ℚ)) (up : Bool) (order : List Nat),
    Planes M mu eta w dx dy sig r u m rho nx ny na bc → order.Perm (List.range 4) →
    let sch := fun g a i j => dd2 (mu a) (eta a) (dx i) (dy j) (sig g (i + j * nx))
    let P := planesProb M sch w m nx ny na up bc order
    ∀ phi phi' bd bd' psi psi', AllSolved P w (fun g => planeSol (sch g) nx ny) phi bd psi →
      AllSolved P w (fun g => planeSol (sch g) nx ny) phi' bd' psi' →
      ∀ g < M.x.mat.G, ∀ side < 4, ∀ o < 4, ∀ a < na, ∀ k < (if side < 2 then ny else nx), bd g side o a k = bd' g side o a k

/-- Two groups have a solution, whatever the sides do. -/
theorem pair_solved (bc : Nat → Nat → BC (Nat → ℚ)) (same : ∀ g s, bc g s = .reflect ↔ bc 0 s = .reflect)
    (np : ∀ g, ∀ s < 4, bc g s ≠ .periodic) :
    let sch := fun (_ a i j : Nat) => dd2 (1 / ((a : ℚ) + 2)) (1 / ((a : ℚ) + 3)) (WGReflect.widths i) (WGReflect.widths j) 1
    ∃ phi bd psi, AllSolved (planesProb (pairN 6) sch (fun _ => 1 / 8) 1 3 2 2 true bc [0, 1, 2, 3]) (fun _ => 1 / 8)
      (fun g => planeSol (sch g) 3 2) phi bd psi := by
  intro sch
  obtain ⟨ok, V, fw, hC, D⟩ := planes_facts (pair_planes bc same np) true [0, 1, 2, 3] (by decide) sch
    (fun g a i j => (C27_schemes_linear (fun x : ℚ => x) _ _ 0 _ _ 0 _).2.2.2.1)
    (fun g a i j c1 c2 c3 c4 c5 => cell_dd2 _ _ _ _ _ c1 c2 c3 c4 c5)
  obtain ⟨phi, h⟩ := C129_exists ok hC D ⟨fun _ _ _ _ => 0, fun _ => 0, fun _ _ _ => 0⟩
  choose bd psi k using h
  refine ⟨phi, fun g => if hg : g < _ then bd g hg else fun _ _ _ _ => 0, fun g => if hg : g < _ then psi g hg else fun _ _ _ => 0,
    fun g hg => ?_⟩
  have := k g hg
  simp only [dif_pos hg]
  exact this

/-- It fails for two groups between four mirrors. -/
theorem C154_claim_fails : ¬ C154Claim := by
  intro h
  have hP := pair_planes (fun _ _ => .reflect) (fun _ _ => Iff.rfl) (fun _ _ _ => by simp)
  obtain ⟨phi, bd, psi, k⟩ := pair_solved (fun _ _ => .reflect) (fun _ _ => Iff.rfl) (fun _ _ _ => by simp)
  have k' := (C154_mirrors hP (fun _ _ => rfl) true [0, 1, 2, 3] (by decide) k).1 fun _ _ => 1
  have := h _ _ _ _ _ _ _ _ _ _ _ _ _ _ _ true [0, 1, 2, 3] hP (by decide) _ _ _ _ _ _ k k' 1 (by decide +kernel) 0 (by omega) 0
    (by omega) 0 (by omega) 0 (by norm_num)
  have e : alternating (1 / (((0 : Nat) : ℚ) + 2)) (1 / (((0 : Nat) : ℚ) + 3)) WGReflect.widths WGReflect.widths 3 2 0 0 0 ≠ 0 := by
    decide +kernel
  rw [one_mul] at this
  exact e (left_eq_add.1 this)

/-- With vacuum at one side there is a solution, and its side fluxes are the only ones. -/
example :
    let sch := fun (_ a i j : Nat) => dd2 (1 / ((a : ℚ) + 2)) (1 / ((a : ℚ) + 3)) (WGReflect.widths i) (WGReflect.widths j) 1
    let P := planesProb (pairN 6) sch (fun _ => 1 / 8) 1 3 2 2 true (fun _ s => if s = 2 then .vacuum else .reflect) [0, 1, 2, 3]
    ∃ phi bd psi, AllSolved P (fun _ => 1 / 8) (fun g => planeSol (sch g) 3 2) phi bd psi ∧
      ∀ phi' bd' psi', AllSolved P (fun _ => 1 / 8) (fun g => planeSol (sch g) 3 2) phi' bd' psi' →
        ∀ g < 2, ∀ side < 4, ∀ o < 4, ∀ a < 2, ∀ k < (if side < 2 then 2 else 3), bd g side o a k = bd' g side o a k := by
  intro sch P
  obtain ⟨phi, bd, psi, k⟩ := pair_solved (fun _ s => if s = 2 then .vacuum else .reflect) (fun _ _ => Iff.rfl)
    (fun _ s _ => by split <;> simp)
  exact ⟨phi, bd, psi, k, fun phi' bd' psi' k' => C154_2D_partial
    (pair_planes _ (fun _ _ => Iff.rfl) (fun _ s _ => by split <;> simp)) ⟨2, by omega, by simp⟩ true [0, 1, 2, 3] (by decide) k k'⟩

end Detran.MGReflect
