import Verif.Lemmas.MGReflect

/-!
# Multigroup Krylov solves with reflecting sides (C125)
-/

namespace Detran.MGReflect

open Detran.Sweep (St)
open Detran.Boundary (Bd BC Loc Enters)
open Detran.WGReflect (Sweeps Solution Mismatch InFace RhsOf SameSides NoneIn Sides)
open Detran.MGSolve
open Finset

section main
variable {F K : Type} [Field K] [LinearOrder K]

/-! ## Specification -/

/-- The source of group `g` in a cell and direction: external, scattering from all groups at fluxes `phi`, fission
    when it is implicit, and discrete sources, once each. -/
def Prob.src (P : Prob F K) (phi : Nat → Nat → K) (g o a c : Nat) : K :=
  P.M.source phi g c * (P.W g).mtod o a + ((P.W g).disc.map fun d => d o a c).sum

/-- With the fluxes `phi` of all groups, `phi g` is the scalar flux of group `g`: there are angular fluxes that
    satisfy the cell equations with the source of `phi` and every side condition, and sum to `phi g`. -/
def GroupFlux (P : Prob F K) (w : Nat → K) (Sol : Nat → (Nat → K) → Nat → Nat → (Nat → F) → (Nat → K) → Prop)
    (phi : Nat → Nat → K) (g : Nat) : Prop :=
  ∃ bd psi, Solution (P.W g) w (Sol g) (P.src phi g) (phi g) (fun _ => 0) (fun _ => 0) bd psi

/-- What is asked of the data: sources as in C85, sweeps as in C124, the same cells and the same reflecting sides in
    every group, no periodic side. -/
structure OK (P : Prob F K) (w : Nat → K)
    (Sol : Nat → (Nat → K) → Nat → Nat → (Nat → F) → (Nat → K) → Prop) : Prop where
  src : P.M.OK
  cells : ∀ g, (P.W g).N = P.M.x.N
  bsize : ∀ g, (P.W g).bsize = P.bs
  sw : ∀ g < P.M.x.mat.G, Sweeps (P.W g) w (Sol g)
  np : ∀ g < P.M.x.mat.G, ∀ s < 2 * (P.W g).dim, (P.W g).bc s ≠ .periodic

/-- The fluxes of all groups that a Krylov vector stands for. -/
def Prob.fluxes (P : Prob F K) (k : Nat) (phi : Nat → Nat → K) (x : Nat → K) : Nat → Nat → K :=
  unpack P.M.x.adjoint k P.M.x.N (P.groups k) phi x

/-- `x` solves the linear system the solver is given. -/
def SolvesSystem (P : Prob F K) (k : Nat) (tol : K) (phi : Nat → Nat → K) (S S' : Nat → St F K) (x : Nat → K) : Prop :=
  ∀ p < opSize P.M.x.mat.G P.M.x.adjoint k P.M.x.N P.bs,
    (P.multiply k phi S' x).2 p = (P.rhs k tol phi S).2 p

variable {P : Prob F K} {w : Nat → K} {k : Nat}
  {Sol : Nat → (Nat → K) → Nat → Nat → (Nat → F) → (Nat → K) → Prop}

theorem mem_groups (hc : P.Cut k) (g : Nat) :
    g ∈ P.groups k ↔ g < P.M.x.mat.G ∧ (if P.M.x.adjoint then g ≤ k else k ≤ g) :=
  mem_krylov _ hc.1 _ _ hc.2 g

theorem groups_nodup (hc : P.Cut k) : (P.groups k).Nodup := krylov_nodup _ hc.1 _ _ hc.2

theorem fluxes_in (phi : Nat → Nat → K) (x : Nat → K) (g : Nat) (hg : g ∈ P.groups k) (c : Nat) (hcN : c < P.M.x.N) :
    P.fluxes k phi x g c = P.view k x g c := by
  unfold Prob.fluxes Prob.view
  rw [unpack_eq, if_pos hg, if_pos hcN]

theorem fluxes_out (phi : Nat → Nat → K) (x : Nat → K) (g : Nat) (hg : g ∉ P.groups k) :
    P.fluxes k phi x g = phi g := by
  unfold Prob.fluxes
  rw [unpack_eq, if_neg hg]

/-- The group as a within-group problem with given block source. -/
def Prob.group (P : Prob F K) (k : Nat) (phi f : Nat → Nat → K) (g : Nat) : WGReflect.Prob F K :=
  { P.W g with scat := fun _ => P.M.totalScatter f g k, fixed := P.M.fixedWithDown phi g k }

theorem sweeps_group (ok : OK P w Sol) (phi f : Nat → Nat → K) (g : Nat) (hg : g < P.M.x.mat.G) :
    Sweeps (P.group k phi f g) w (Sol g) :=
  let h := ok.sw g hg
  ⟨h.d1, h.d3, h.order, h.face, h.other, h.inc, h.solves, h.lin, h.det⟩

omit [LinearOrder K] in
theorem sol_congr {Q : WGReflect.Prob F K} {S1 : (Nat → K) → Nat → Nat → (Nat → F) → (Nat → K) → Prop}
    (h : Sweeps Q w S1) {q q' : Nat → K} {o a : Nat} {b : Nat → F} {p : Nat → K} (ho : o < 2 ^ Q.dim)
    (hs : S1 q o a b p) (hq : ∀ c < Q.N, q' c = q c) : S1 q' o a b p :=
  h.lin 1 0 q q q' o a b b b p p p ho hs hs (fun c hc => by rw [hq c hc]; ring) (fun c => by ring)
    (fun side _ i j _ => by ring)

theorem bs_zero {Q : WGReflect.Prob F K} (h : Q.hasRefl = false) : Q.bsize = 0 := by
  unfold WGReflect.Prob.bsize
  rw [WGReflect.foldl_if_sum, Nat.zero_add]
  refine List.sum_eq_zero ?_
  intro n hn
  rw [List.mem_map] at hn
  obtain ⟨s, hs, rfl⟩ := hn
  unfold WGReflect.Prob.hasRefl at h
  rw [List.any_eq_false] at h
  exact if_neg (h s hs)

/-- Block by block: what the operator returns. -/
theorem multiply_view (ok : OK P w Sol) (hc : P.Cut k) (phi : Nat → Nat → K) (S : Nat → St F K) (x : Nat → K)
    (g : Nat) (hg : g ∈ P.groups k) :
    ((P.multiply k phi S x).1 g = ((P.opGroup k (P.fluxes k phi x) g).multiply (S g) (P.view k x g)).1) ∧
    ∀ i < P.M.x.N + P.bs, P.view k (P.multiply k phi S x).2 g i =
      ((P.opGroup k (P.fluxes k phi x) g).multiply (S g) (P.view k x g)).2 i := by
  have h := fold_view hc (fun g => (P.W g).hasRefl)
    (fun g s => (P.opGroup k (P.fluxes k phi x) g).multiply s (P.view k x g)) (P.groups k) (groups_nodup hc)
    (fun _ h => h) S (fun _ => 0) g hg
  refine ⟨h.1.trans (if_pos hg), fun i hi => (h.2 i hi).trans (if_pos ⟨hg, ?_⟩)⟩
  by_cases h1 : i < P.M.x.N
  · exact .inl h1
  · right
    by_contra hn
    have := bs_zero (Bool.eq_false_iff.2 hn)
    rw [ok.bsize g] at this
    omega

/-- Block by block: the right-hand side. -/
theorem rhs_view (hc : P.Cut k) (tol : K) (phi : Nat → Nat → K) (S : Nat → St F K)
    (g : Nat) (hg : g ∈ P.groups k) :
    ((P.rhs k tol phi S).1 g = P.rhsState k tol phi g (S g)) ∧
    ∀ i < P.M.x.N + P.bs, P.view k (P.rhs k tol phi S).2 g i =
      if i < P.M.x.N then (P.rhsState k tol phi g (S g)).phi i else 0 := by
  have h := fold_view hc (fun _ => false)
    (fun g s => (P.rhsState k tol phi g s, (P.rhsState k tol phi g s).phi)) (P.groups k) (groups_nodup hc)
    (fun _ h => h) S (fun _ => 0) g hg
  refine ⟨h.1.trans (if_pos hg), fun i hi => (h.2 i hi).trans ?_⟩
  by_cases h1 : i < P.M.x.N
  · rw [if_pos ⟨hg, .inl h1⟩, if_pos h1]
  · rw [if_neg (by rintro ⟨_, h | h⟩; exacts [h1 h, by cases h]), if_neg h1, view_zero]

theorem rhs_of (ok : OK P w Sol) (tol : K) (phi f : Nat → Nat → K) (g : Nat) (hg : g < P.M.x.mat.G) (s : St F K) :
    RhsOf (P.group k phi f g) (P.rhsState k tol phi g s) := by
  have h := ok.sw g hg
  have hs : Sweeps (P.rhsGroup k phi g) w (Sol g) :=
    ⟨h.d1, h.d3, h.order, h.face, h.other, h.inc, h.solves, h.lin, h.det⟩
  constructor
  unfold Prob.rhsState
  dsimp only
  cases hr : (P.rhsGroup k phi g).hasRefl with
  | true =>
    simp only [if_true]
    obtain ⟨s', h1, h2⟩ := WGReflect.loop_last hs (ok.np g hg)
      ((P.rhsGroup k phi g).source (P.rhsGroup k phi g).fixed (fun _ => 0)) tol 1999
      ⟨Boundary.set (P.W g).dim (P.W g).na (P.W g).bc ((P.W g).clear s.bdy), fun _ => 0, s.psi⟩
    exact ⟨true, s', s.bdy, h1, h2⟩
  | false =>
    simp only [Bool.false_eq_true, if_false]
    exact ⟨false, _, s.bdy, rfl, fun _ _ _ _ _ _ _ _ => rfl⟩

section ordered
variable [IsStrictOrderedRing K]

/-- In the cells, block source plus down-scatter source is the whole source. -/
theorem source_block (ok : OK P w Sol) (hc : P.Cut k) (hb : P.M.NoBackward k) (phi f : Nat → Nat → K) (g : Nat)
    (hg : g ∈ P.groups k) (hf : ∀ gp, gp ∉ P.groups k → f gp = phi gp) (o a c : Nat) (hcN : c < P.M.x.N) :
    P.src f g o a c = (P.group k phi f g).source (P.group k phi f g).fixed (P.M.totalScatter f g k) o a c := by
  have hgm := (mem_groups hc g).1 hg
  have h1 := block_source P.M ok.src f phi k g hgm.1 hgm.2 hb (by
    intro gp hgp
    refine (hf gp ?_).symm
    rw [mem_groups hc]
    rintro ⟨_, h⟩
    revert h hgp
    cases P.M.x.adjoint <;> simp <;> omega) c hcN
  unfold Prob.src WGReflect.Prob.source Sweep.sweepSource
  rw [← h1]
  have key : ∀ (l : List (Nat → Nat → Nat → K)) (v : K), l.foldl (fun v d => v + d o a c) v
      = v + (l.map fun d => d o a c).sum := by
    intro l
    induction l with
    | nil => intro v; simp
    | cons d l ih => intro v; rw [List.foldl_cons, ih, List.map_cons, List.sum_cons, add_assoc]
  rw [key]
  rfl

/-- For every vector `x`, with `r = b - A x`, and every group of the block: `x` holds the scalar flux and the
    collided part of the entering fluxes of a solution of the group's equations with the source of all groups,
    whose scalar flux is off by the group's part of `r` and whose reflection is off by what it was off in the
    uncollided problem less `r` at that place. -/
theorem C125_residual (ok : OK P w Sol) (hc : P.Cut k) (hb : P.M.NoBackward k) (tol : K) (phi : Nat → Nat → K)
    (S S' : Nat → St F K) (x : Nat → K) (g : Nat) (hg : g ∈ P.groups k) (eB : Loc → K)
    (hm : Mismatch (P.W g) ((P.rhs k tol phi S).1 g).bdy eB) :
    let r := P.view k (fun p => (P.rhs k tol phi S).2 p - (P.multiply k phi S' x).2 p) g
    ∃ bd psi, Solution (P.W g) w (Sol g) (P.src (P.fluxes k phi x) g) (P.fluxes k phi x g) r
      (fun l => eB l - r ((P.W g).slot l)) bd psi ∧
      ∀ side < 2 * (P.W g).dim, (P.W g).bc side = .reflect → ∀ o < 2 ^ (P.W g).dim, Enters side o → ∀ a < (P.W g).na,
        ∀ i j, InFace (P.W g) side i j → (P.W g).get (bd side o a) i j =
          P.view k x g ((P.W g).slot ⟨side, o, a, i, j⟩) + (P.W g).get (((P.rhs k tol phi S).1 g).bdy side o a) i j := by
  intro r
  have hgG := ((mem_groups hc g).1 hg).1
  have hs := sweeps_group (k := k) ok phi (P.fluxes k phi x) g hgG
  have hN : (P.W g).N = P.M.x.N := ok.cells g
  obtain ⟨r1, r2⟩ := rhs_view hc tol phi S g hg
  rw [r1] at hm ⊢
  obtain ⟨bd, psi, hS, hbd⟩ := WGReflect.residual_core hs (ok.np g hgG) (P.rhsState k tol phi g (S g))
    (rhs_of ok tol phi _ g hgG (S g)) (S' g) (P.view k x g) eB hm
  have er : ∀ i < P.M.x.N + P.bs, r i = (P.group k phi (P.fluxes k phi x) g).rhsVec (P.rhsState k tol phi g (S g)) i
      - ((P.group k phi (P.fluxes k phi x) g).off.multiply (S' g) (P.view k x g)).2 i := by
    intro i hi
    simp only [r]
    rw [view_sub, r2 i hi, (multiply_view ok hc phi S' x g hg).2 i hi]
    congr 1
    unfold WGReflect.Prob.rhsVec
    exact if_congr (by rw [show (P.group k phi (P.fluxes k phi x) g).N = P.M.x.N from hN]) rfl rfl
  refine ⟨bd, psi, ⟨?_, ?_, hS.vacuum, hS.given, ?_⟩, hbd⟩
  · intro o ho a ha
    refine sol_congr (ok.sw g hgG) ho (hS.cells o ho a ha) fun c hcN => ?_
    rw [hN] at hcN
    exact source_block ok hc hb phi _ g hg (fun gp h => fluxes_out phi x gp h) o a c hcN
  · intro c hcN
    refine Eq.trans ?_ (hS.flux c hcN)
    rw [hN] at hcN
    rw [fluxes_in phi x g hg c hcN, er c (by omega)]
  · intro side hs' hbc o ho he o' hmm a ha i j hi
    refine (hS.reflect side hs' hbc o ho he o' hmm a ha i j hi).trans ?_
    have hl := (WGReflect.slot_spec hs _ ((WGReflect.mem_locs hs side o a i j).2 ⟨hs', hbc, ho, he, ha, hi⟩)).2.1
    have hl' : (P.W g).slot ⟨side, o, a, i, j⟩ < P.M.x.N + P.bs := by
      have h1 : (P.W g).slot ⟨side, o, a, i, j⟩ < (P.W g).N + (P.W g).bsize := hl
      rwa [hN, ok.bsize g] at h1
    dsimp only
    rw [er _ hl']
    rfl

/-- If the reflection of the uncollided fluxes has settled in every group, an exact solution of the linear system
    gives every group of the block its scalar flux, with the source of all groups and every side condition met. -/
theorem C125_solution (ok : OK P w Sol) (hc : P.Cut k) (hb : P.M.NoBackward k) (tol : K) (phi : Nat → Nat → K)
    (S S' : Nat → St F K) (x : Nat → K)
    (hm : ∀ g ∈ P.groups k, Mismatch (P.W g) ((P.rhs k tol phi S).1 g).bdy fun _ => 0)
    (hx : SolvesSystem P k tol phi S S' x) : ∀ g ∈ P.groups k, GroupFlux P w Sol (P.fluxes k phi x) g := by
  intro g hg
  obtain ⟨bd, psi, hS, _⟩ := C125_residual ok hc hb tol phi S S' x g hg _ (hm g hg)
  have hgG := ((mem_groups hc g).1 hg).1
  have hs := ok.sw g hgG
  have r0 : ∀ i < P.M.x.N + P.bs, P.view k (fun p => (P.rhs k tol phi S).2 p - (P.multiply k phi S' x).2 p) g i = 0 := by
    intro i hi
    rw [view_sub, view_inside hc _ _ hx g hg i hi, sub_self]
  refine ⟨bd, psi, hS.cells, ?_, hS.vacuum, hS.given, ?_⟩
  · intro c hcN
    rw [← hS.flux c hcN, r0 c (by rw [ok.cells g] at hcN; omega)]
  · intro side hs' hbc o ho he o' hmm a ha i j hi
    rw [hS.reflect side hs' hbc o ho he o' hmm a ha i j hi]
    have hl := (WGReflect.slot_spec hs _ ((WGReflect.mem_locs hs side o a i j).2 ⟨hs', hbc, ho, he, ha, hi⟩)).2.1
    rw [ok.cells g, ok.bsize g] at hl
    rw [r0 _ hl, sub_zero]

/-! ### The whole solve: groups one at a time, then the block -/

theorem source_point (M : MGSolve.Prob K) (phi psi : Nat → Nat → K) (g c : Nat)
    (h : ∀ gp < M.x.mat.G, phi gp c = psi gp c) : M.source phi g c = M.source psi g c := by
  unfold MGSolve.Prob.source
  have h1 : ∀ f : Nat → K, ∑ gp ∈ range M.x.mat.G, phi gp c * f gp = ∑ gp ∈ range M.x.mat.G, psi gp c * f gp :=
    fun f => Finset.sum_congr rfl fun gp hgp => by rw [h gp (mem_range.1 hgp)]
  rw [h1, h1]

omit [IsStrictOrderedRing K] in
theorem source_congr (M : MGSolve.Prob K) (phi psi : Nat → Nat → K) (g c : Nat) (hcN : c < M.x.N)
    (h : ∀ gp < M.x.mat.G, phi gp = psi gp ∨
      M.implicit = false ∧ ∀ c < M.x.N, Material.xs M.x.mat.sigS M.x.adjoint g gp (M.x.mmap c) = 0) :
    M.source phi g c = M.source psi g c := by
  unfold MGSolve.Prob.source
  have h1 : ∑ gp ∈ range M.x.mat.G, phi gp c * Material.xs M.x.mat.sigS M.x.adjoint g gp (M.x.mmap c)
      = ∑ gp ∈ range M.x.mat.G, psi gp c * Material.xs M.x.mat.sigS M.x.adjoint g gp (M.x.mmap c) := by
    refine Finset.sum_congr rfl fun gp hgp => ?_
    rcases h gp (mem_range.1 hgp) with h | h
    · rw [h]
    · rw [h.2 c hcN, mul_zero, mul_zero]
  rw [h1]
  cases hi : M.implicit with
  | false => simp
  | true =>
    simp only [if_true]
    congr 2
    refine Finset.sum_congr rfl fun gp hgp => ?_
    rcases h gp (mem_range.1 hgp) with h | h
    · rw [h]
    · rw [hi] at h
      exact absurd h.1 (by simp)

omit [IsStrictOrderedRing K] in
theorem flux_congr (ok : OK P w Sol) (phi psi : Nat → Nat → K) (g : Nat) (hgG : g < P.M.x.mat.G)
    (hg : ∀ c < P.M.x.N, phi g c = psi g c)
    (h : ∀ c < P.M.x.N, P.M.source phi g c = P.M.source psi g c) (hp : GroupFlux P w Sol phi g) :
    GroupFlux P w Sol psi g := by
  obtain ⟨bd, ps, hS⟩ := hp
  refine ⟨bd, ps, ?_, ?_, hS.vacuum, hS.given, hS.reflect⟩
  · intro o ho a ha
    refine sol_congr (ok.sw g hgG) ho (hS.cells o ho a ha) fun c hcN => ?_
    rw [ok.cells g] at hcN
    unfold Prob.src
    rw [h c hcN]
  · intro c hcN
    rw [← hS.flux c hcN, hg c (by rw [ok.cells g] at hcN; exact hcN)]

/-- A within-group solution in the sense of C124, with the group's in-scatter from the other groups as fixed source,
    is the group's flux. -/
theorem C125_group (ok : OK P w Sol) (phi : Nat → Nat → K) (g : Nat) (hgG : g < P.M.x.mat.G) (x : Nat → K)
    (bd : Bd F) (psi : Nat → Nat → Nat → K)
    (hS : Solution (P.W g) w (Sol g) ((P.siGroup phi g).source (P.M.fixedWithScatter phi g)
      (P.M.withinScatter g ((P.W g).moments x))) x (fun _ => 0) (fun _ => 0) bd psi) :
    GroupFlux P w Sol (MGSolve.put phi g x) g := by
  have e : MGSolve.put phi g x g = x := if_pos rfl
  refine ⟨bd, psi, ?_, ?_, hS.vacuum, hS.given, hS.reflect⟩
  · intro o ho a ha
    refine sol_congr (ok.sw g hgG) ho (hS.cells o ho a ha) fun c hcN => ?_
    rw [ok.cells g] at hcN
    have h1 := fixed_plus_within P.M ok.src phi g hgG ((P.W g).moments x) c hcN
    have h2 : P.M.source (MGSolve.put phi g x) g c = P.M.source (MGSolve.put phi g ((P.W g).moments x)) g c := by
      refine source_point _ _ _ _ _ fun gp _ => ?_
      unfold MGSolve.put
      split
      · unfold WGReflect.Prob.moments
        rw [if_pos (by rw [ok.cells g]; exact hcN)]
      · rfl
    unfold Prob.src WGReflect.Prob.source Sweep.sweepSource
    rw [h2, ← h1]
    have key : ∀ (l : List (Nat → Nat → Nat → K)) (v : K), l.foldl (fun v d => v + d o a c) v
        = v + (l.map fun d => d o a c).sum := by
      intro l
      induction l with
      | nil => intro v; simp
      | cons d l ih => intro v; rw [List.foldl_cons, ih, List.map_cons, List.sum_cons, add_assoc]
    rw [key]
    rfl
  · intro c hcN
    rw [e]
    exact hS.flux c hcN

omit [IsStrictOrderedRing K] in
theorem gs_split (G : Nat) (hG : G < 2147483648) (adjoint : Bool) (k : Nat)
    (hk : if adjoint then k < G else k ≤ G) (g : Nat) (hg : g < G) (hgs : if adjoint then k < g else g < k) :
    ∃ l1 l2, gsGroups G adjoint k = l1 ++ g :: l2 ∧ g ∉ l2 ∧ ∀ gp ∈ l2, later adjoint g gp := by
  unfold later
  cases adjoint with
  | false =>
    simp only [Bool.false_eq_true, if_false] at hk hgs ⊢
    refine ⟨List.range' 0 g, List.range' (g + 1) (k - g - 1), ?_, ?_, ?_⟩
    · rw [(blocks_forward _ (by omega) k hk).1, List.range_eq_range', ← List.range'_succ]
      have := List.range'_append (s := 0) (m := g) (n := k - g - 1 + 1) (step := 1)
      simp only [Nat.one_mul, Nat.zero_add] at this
      rw [this]
      congr 1
      omega
    · rw [List.mem_range'_1]; omega
    · intro gp; rw [List.mem_range'_1]; omega
  | true =>
    simp only [if_true] at hk hgs ⊢
    refine ⟨(List.range' (g + 1) (G - 1 - g)).reverse, (List.range' (k + 1) (g - k - 1)).reverse, ?_, ?_, ?_⟩
    · rw [(blocks_adjoint _ (by omega) k hk).1]
      have h1 := List.range'_append (s := k + 1) (m := g - k - 1) (n := G - 1 - g + 1) (step := 1)
      rw [Nat.one_mul, show k + 1 + (g - k - 1) = g by omega, List.range'_succ] at h1
      rw [show G - 1 - k = g - k - 1 + (G - 1 - g + 1) by omega, ← h1]
      simp
    · rw [List.mem_reverse, List.mem_range'_1]; omega
    · intro gp; rw [List.mem_reverse, List.mem_range'_1]; omega

/-- The whole solve: groups outside the block solved one at a time by any within-group solver that finds group
    fluxes, then the block by an exact linear solve.  If the groups outside receive nothing from later groups,
    every group ends with its flux, with the source of all groups and every side condition met. -/
theorem C125_balanced (ok : OK P w Sol) (hc : P.Cut k) (hb : P.M.NoBackward k)
    (wg : (Nat → Nat → K) → Nat → Nat → K)
    (hwg : ∀ phi, ∀ g < P.M.x.mat.G, g ∉ P.groups k → GroupFlux P w Sol (MGSolve.put phi g (wg phi g)) g)
    (hu : ∀ g < P.M.x.mat.G, g ∉ P.groups k → P.M.Uncoupled g) (tol : K) (phi : Nat → Nat → K)
    (S S' : Nat → St F K) (x : Nat → K) :
    let phi1 := passes wg (gsGroups P.M.x.mat.G P.M.x.adjoint k) phi
    (∀ g ∈ P.groups k, Mismatch (P.W g) ((P.rhs k tol phi1 S).1 g).bdy fun _ => 0) →
    SolvesSystem P k tol phi1 S S' x → ∀ g < P.M.x.mat.G, GroupFlux P w Sol (P.fluxes k phi1 x) g := by
  intro phi1 hm hx g hg
  by_cases hgk : g ∈ P.groups k
  · exact C125_solution ok hc hb tol phi1 S S' x hm hx g hgk
  · have hgs : if P.M.x.adjoint then k < g else g < k := by
      rw [mem_groups hc] at hgk
      revert hgk
      cases P.M.x.adjoint <;> simp <;> omega
    have hun := hu g hg hgk
    obtain ⟨l1, l2, hl, hn, hlat⟩ := gs_split _ hc.1 _ k hc.2 g hg hgs
    have h1 : GroupFlux P w Sol phi1 g := by
      simp only [phi1]
      rw [hl, passes_append, passes_cons]
      refine flux_congr ok (MGSolve.put (passes wg l1 phi) g (wg (passes wg l1 phi) g)) _ g hg ?_ ?_ (hwg _ g hg hgk)
      · intro c _
        rw [passes_other wg l2 _ g hn]
      · intro c hcN
        refine source_congr _ _ _ _ _ hcN fun gp hgp => ?_
        by_cases hm : gp ∈ l2
        · exact .inr ⟨hun.1, hun.2 gp hgp (hlat gp hm)⟩
        · exact .inl (passes_other wg l2 _ gp hm).symm
    refine flux_congr ok phi1 _ g hg (fun c _ => by rw [fluxes_out phi1 x g hgk]) ?_ h1
    intro c hcN
    refine source_congr _ _ _ _ _ hcN fun gp hgp => ?_
    by_cases hm : gp ∈ P.groups k
    · right
      refine ⟨hun.1, hun.2 gp hgp ?_⟩
      rw [mem_groups hc] at hm
      unfold later
      revert hm hgs
      cases P.M.x.adjoint <;> simp <;> omega
    · left
      rw [fluxes_out phi1 x gp hm]

/-! ### The operator as a function -/

omit [IsStrictOrderedRing K] in
/-- What the operator returns depends only on the vector and the fluxes of the groups outside the block. -/
theorem C125_operator_pure (ok : OK P w Sol) (hc : P.Cut k) (phi : Nat → Nat → K) (S S' : Nat → St F K) (x : Nat → K) :
    ∀ p < opSize P.M.x.mat.G P.M.x.adjoint k P.M.x.N P.bs,
      (P.multiply k phi S x).2 p = (P.multiply k phi S' x).2 p := by
  refine view_cover hc _ _ fun g hg i hi => ?_
  have hgG := ((mem_groups hc g).1 hg).1
  have h := ok.sw g hgG
  have hs : Sweeps (P.opGroup k (P.fluxes k phi x) g) w (Sol g) :=
    ⟨h.d1, h.d3, h.order, h.face, h.other, h.inc, h.solves, h.lin, h.det⟩
  rw [(multiply_view ok hc phi S x g hg).2 i hi, (multiply_view ok hc phi S' x g hg).2 i hi]
  refine WGReflect.C124_operator_pure hs (ok.np g hgG) (S g) (S' g) _ i ?_
  change i < (P.W g).N + (P.W g).bsize
  rw [ok.cells g, ok.bsize g]
  exact hi

/-- The block source in a cell. -/
theorem total_form (M : MGSolve.Prob K) (f : Nat → Nat → K) (g k c : Nat) (hcN : c < M.x.N) :
    M.totalScatter f g k c = (∑ gp ∈ Finset.Icc (min k (M.x.mat.upper g M.x.adjoint))
        (max k (M.x.mat.upper g M.x.adjoint)), f gp c * M.x.ker g gp c)
      + if M.implicit then ((List.range M.x.mat.G).map fun gp => f gp c * M.scale * M.x.fker g gp c).sum else 0 := by
  unfold MGSolve.Prob.totalScatter Material.Src.fissionTotal Material.Src.totalGroup
  cases M.implicit with
  | false =>
    simp only [Bool.false_eq_true, if_false]
    rw [Material.foldl_addCells, if_pos hcN, Material.sum_groups_incl, zero_add, add_zero]
  | true =>
    simp only [if_true]
    rw [Material.foldl_addCells, if_pos hcN, Material.foldl_addCells, if_pos hcN, Material.sum_groups_incl, zero_add]

theorem total_lin (M : MGSolve.Prob K) (α β : K) (f f' : Nat → Nat → K) (g k c : Nat) (hcN : c < M.x.N) :
    M.totalScatter (fun gp c => α * f gp c + β * f' gp c) g k c
      = α * M.totalScatter f g k c + β * M.totalScatter f' g k c := by
  rw [total_form _ _ _ _ _ hcN, total_form _ _ _ _ _ hcN, total_form _ _ _ _ _ hcN]
  have h1 : ∀ (s : Finset Nat) (u : Nat → K), ∑ gp ∈ s, (α * f gp c + β * f' gp c) * u gp
      = α * (∑ gp ∈ s, f gp c * u gp) + β * ∑ gp ∈ s, f' gp c * u gp := by
    intro s u
    rw [mul_sum, mul_sum, ← sum_add_distrib]
    exact sum_congr rfl fun _ _ => by ring
  have h2 : ∀ (l : List Nat) (u : Nat → K), (l.map fun gp => (α * f gp c + β * f' gp c) * M.scale * u gp).sum
      = α * (l.map fun gp => f gp c * M.scale * u gp).sum + β * (l.map fun gp => f' gp c * M.scale * u gp).sum := by
    intro l u
    induction l with
    | nil => simp
    | cons a l ih => simp only [List.map_cons, List.sum_cons]; rw [ih]; ring
  rw [h1]
  split
  · rw [h2]; ring
  · ring

/-- It is made from the fluxes of the block and, with implicit fission, of all groups. -/
theorem total_local (ok : OK P w Sol) (hc : P.Cut k) (f f' : Nat → Nat → K) (g : Nat) (hg : g ∈ P.groups k) (c : Nat)
    (hcN : c < P.M.x.N) (h : ∀ gp ∈ P.groups k, f gp c = f' gp c)
    (himp : P.M.implicit = false ∨ ∀ gp < P.M.x.mat.G, f gp c = f' gp c) :
    P.M.totalScatter f g k c = P.M.totalScatter f' g k c := by
  rw [total_form _ _ _ _ _ hcN, total_form _ _ _ _ _ hcN]
  have hgm := (mem_groups hc g).1 hg
  congr 1
  · refine sum_congr rfl fun gp hgp => ?_
    rw [mem_Icc] at hgp
    rw [h gp ?_]
    rw [mem_groups hc]
    have hb := Material.bounds_lt P.M.x g hgm.1
    rw [ok.src.fin] at hb
    have hgG := hgm.1
    have hgm := hgm.2
    have hk := hc.2
    cases ha : P.M.x.adjoint with
    | false =>
      have := Material.lower_le_upper_fwd P.M.x g hgG ha
      rw [ok.src.fin] at this
      rw [ha] at hgm hgp hb hk
      simp only [Bool.false_eq_true, if_false] at hgm hgp hb hk ⊢
      omega
    | true =>
      have := Material.upper_le_lower_adj P.M.x g hgG ha
      rw [ok.src.fin] at this
      rw [ha] at hgm hgp hb hk
      simp only [if_true] at hgm hgp hb hk ⊢
      omega
  · rcases himp with h1 | h1
    · rw [h1]; rfl
    · have : ∀ gp ∈ List.range P.M.x.mat.G, f gp c * P.M.scale * P.M.x.fker g gp c
          = f' gp c * P.M.scale * P.M.x.fker g gp c := fun gp hgp => by rw [h1 gp (List.mem_range.1 hgp)]
      rw [List.map_congr_left this]

/-- Without discrete sources in its sweeps, and with implicit fission only when all groups are in the block, the
    operator is linear, reflecting sides included. -/
theorem C125_operator_linear (ok : OK P w Sol) (hc : P.Cut k)
    (himp : P.M.implicit = false ∨ ∀ g < P.M.x.mat.G, g ∈ P.groups k) (phi : Nat → Nat → K) (α β : K)
    (x y z : Nat → K) (hz : ∀ p < opSize P.M.x.mat.G P.M.x.adjoint k P.M.x.N P.bs, z p = α * x p + β * y p)
    (S1 S2 S3 : Nat → St F K) : ∀ p < opSize P.M.x.mat.G P.M.x.adjoint k P.M.x.N P.bs,
      (P.multiply k phi S3 z).2 p = α * (P.multiply k phi S1 x).2 p + β * (P.multiply k phi S2 y).2 p := by
  refine view_cover hc _ _ fun g hg i hi => ?_
  have hgG := ((mem_groups hc g).1 hg).1
  have hs := WGReflect.sweeps_off (ok.sw g hgG)
  have hv : ∀ g ∈ P.groups k, ∀ i < P.M.x.N + P.bs, P.view k z g i = α * P.view k x g i + β * P.view k y g i := by
    intro g hg i hi
    rw [← view_comb]
    exact view_inside hc _ _ hz g hg i hi
  rw [view_comb, (multiply_view ok hc phi S3 z g hg).2 i hi, (multiply_view ok hc phi S1 x g hg).2 i hi,
    (multiply_view ok hc phi S2 y g hg).2 i hi]
  have hN : (P.W g).off.N = P.M.x.N := ok.cells g
  have hB : (P.W g).off.bsize = P.bs := ok.bsize g
  refine WGReflect.linear_core hs (ok.np g hgG) rfl α β (P.view k x g) (P.view k y g) (P.view k z g)
    (fun i hi => hv g hg i (by rwa [hN, hB] at hi)) _ _ _ ?_ (S1 g) (S2 g) (S3 g) i (by rwa [hN, hB])
  intro c hcN
  rw [hN] at hcN
  rw [← total_lin _ _ _ _ _ _ _ _ hcN]
  have hin : ∀ gp ∈ P.groups k, P.fluxes k phi z gp c = α * P.fluxes k phi x gp c + β * P.fluxes k phi y gp c := by
    intro gp hgp
    rw [fluxes_in phi z gp hgp c hcN, fluxes_in phi x gp hgp c hcN, fluxes_in phi y gp hgp c hcN]
    exact hv gp hgp c (by omega)
  exact total_local ok hc _ _ g hg c hcN hin (himp.imp id fun h gp hgp => hin gp (h gp hgp))

/-! ### Every solution is reached -/

/-- Conversely, fluxes of all groups that agree outside the block with what the block was given and are the group
    fluxes inside it come from a solution of the linear system. -/
theorem C125_complete (ok : OK P w Sol) (hc : P.Cut k) (hb : P.M.NoBackward k) (tol : K) (phi f : Nat → Nat → K)
    (S S' : Nat → St F K) (hm : ∀ g ∈ P.groups k, Mismatch (P.W g) ((P.rhs k tol phi S).1 g).bdy fun _ => 0)
    (hout : ∀ gp, gp ∉ P.groups k → f gp = phi gp) (hf : ∀ g ∈ P.groups k, GroupFlux P w Sol f g) :
    ∃ x, SolvesSystem P k tol phi S S' x ∧ ∀ g ∈ P.groups k, ∀ c < P.M.x.N, P.fluxes k phi x g c = f g c := by
  have hx : ∀ g, ∃ x : Nat → K, g ∈ P.groups k →
      (∀ i < P.M.x.N + P.bs, ((P.group k phi f g).off.multiply (S' g) x).2 i
        = if i < P.M.x.N then (P.rhsState k tol phi g (S g)).phi i else 0) ∧ ∀ c < P.M.x.N, x c = f g c := by
    intro g
    by_cases hg : g ∈ P.groups k
    · have hgG := ((mem_groups hc g).1 hg).1
      have hs := sweeps_group (k := k) ok phi f g hgG
      obtain ⟨bd, psi, hS⟩ := hf g hg
      have hN : (P.group k phi f g).N = P.M.x.N := ok.cells g
      have hB : (P.group k phi f g).bsize = P.bs := ok.bsize g
      have hm' := hm g hg
      rw [(rhs_view hc tol phi S g hg).1] at hm'
      obtain ⟨x, h1, h2⟩ := WGReflect.complete_core hs (ok.np g hgG) (P.rhsState k tol phi g (S g))
        (rhs_of ok tol phi f g hgG (S g)) (S' g) (f g) hm' bd psi
        ⟨fun o ho a ha => sol_congr (ok.sw g hgG) ho (hS.cells o ho a ha) fun c hcN =>
          (source_block ok hc hb phi f g hg hout o a c (by rw [ok.cells g] at hcN; exact hcN)).symm,
          hS.flux, hS.vacuum, hS.given, hS.reflect⟩
      rw [hN, hB] at h1
      rw [hN] at h2
      refine ⟨x, fun _ => ⟨fun i hi => (h1 i hi).trans ?_, h2⟩⟩
      unfold WGReflect.Prob.rhsVec
      exact if_congr (by rw [hN]) rfl rfl
    · exact ⟨fun _ => 0, fun h => absurd h hg⟩
  choose xs hxs using hx
  let x := ((P.groups k).foldl (fun r g => (upd r.1 g (r.1 g), P.put k true r.2 g (xs g))) (S, fun _ => (0 : K))).2
  have hxv : ∀ g ∈ P.groups k, ∀ i < P.M.x.N + P.bs, P.view k x g i = xs g i := by
    intro g hg i hi
    have := (fold_view hc (fun _ => true) (fun g s => (s, xs g)) (P.groups k) (groups_nodup hc) (fun _ h => h) S
      (fun _ => 0) g hg).2 i hi
    exact this.trans (if_pos ⟨hg, .inr rfl⟩)
  have hfl : ∀ gp, ∀ c < P.M.x.N, P.fluxes k phi x gp c = f gp c := by
    intro gp c hcN
    by_cases hg : gp ∈ P.groups k
    · rw [fluxes_in phi x gp hg c hcN, hxv gp hg c (by omega), (hxs gp hg).2 c hcN]
    · rw [fluxes_out phi x gp hg, hout gp hg]
  refine ⟨x, ?_, fun g _ c hcN => hfl g c hcN⟩
  refine view_cover hc _ _ fun g hg i hi => ?_
  have hgG := ((mem_groups hc g).1 hg).1
  have hN : (P.W g).off.N = P.M.x.N := ok.cells g
  have hB : (P.W g).off.bsize = P.bs := ok.bsize g
  rw [(multiply_view ok hc phi S' x g hg).2 i hi, (rhs_view hc tol phi S g hg).2 i hi, ← (hxs g hg).1 i hi]
  have := WGReflect.linear_core (WGReflect.sweeps_off (ok.sw g hgG)) (ok.np g hgG) rfl 1 0 (xs g) (xs g) (P.view k x g)
    (fun i hi => by rw [hN, hB] at hi; rw [hxv g hg i hi]; ring) (P.M.totalScatter f g k) (P.M.totalScatter f g k)
    (P.M.totalScatter (P.fluxes k phi x) g k) (by
      intro c hcN
      rw [hN] at hcN
      rw [total_local ok hc _ f g hg c hcN (fun gp _ => hfl gp c hcN) (.inr fun gp _ => hfl gp c hcN)]
      ring) (S' g) (S' g) (S' g) i (by rwa [hN, hB])
  refine this.trans ?_
  rw [one_mul, zero_mul, add_zero]
  rfl

/-- So when the linear system has one solution, the groups of the block have one set of fluxes for given fluxes
    outside it. -/
theorem C125_unique (ok : OK P w Sol) (hc : P.Cut k) (hb : P.M.NoBackward k) (tol : K) (phi f : Nat → Nat → K)
    (S S' : Nat → St F K) (x : Nat → K)
    (hm : ∀ g ∈ P.groups k, Mismatch (P.W g) ((P.rhs k tol phi S).1 g).bdy fun _ => 0)
    (hone : ∀ x x', SolvesSystem P k tol phi S S' x → SolvesSystem P k tol phi S S' x' →
      ∀ p < opSize P.M.x.mat.G P.M.x.adjoint k P.M.x.N P.bs, x p = x' p)
    (hx : SolvesSystem P k tol phi S S' x) (hout : ∀ gp, gp ∉ P.groups k → f gp = phi gp)
    (hf : ∀ g ∈ P.groups k, GroupFlux P w Sol f g) :
    ∀ g ∈ P.groups k, ∀ c < P.M.x.N, P.fluxes k phi x g c = f g c := by
  obtain ⟨x', h1, h2⟩ := C125_complete ok hc hb tol phi f S S' hm hout hf
  intro g hg c hcN
  rw [← h2 g hg c hcN, fluxes_in phi x g hg c hcN, fluxes_in phi x' g hg c hcN]
  exact view_inside hc _ _ (hone x x' hx h1) g hg c (by omega)

/-! ### The sweeps after the solve, and source iteration in the groups -/

theorem fold_upd {A : Type} (f : (Nat → A) → Nat → Nat → A) (step : Nat → A → A)
    (hf : ∀ S g, f S g g = step g (S g)) (ho : ∀ S g g', g' ≠ g → f S g g' = S g') (l : List Nat) (hl : l.Nodup)
    (S : Nat → A) (g : Nat) : l.foldl f S g = if g ∈ l then step g (S g) else S g := by
  induction l generalizing S with
  | nil => simp
  | cons a l ih =>
    rw [List.nodup_cons] at hl
    rw [List.foldl_cons, ih hl.2]
    by_cases h : g = a
    · subst h
      rw [if_neg hl.1, if_pos (by simp), hf]
    · rw [ho S a g h]
      simp [h]

/-- With the angular option the sweeps after the solve leave, in each group of the block, boundary and angular
    fluxes that solve the group's equations with the source of the returned fluxes, up to the reflection mismatch
    `eB`; the returned fluxes stay in the state.  The last pass is `s' ↦ sweep`, and if it changed no flux leaving
    through a reflecting side, the mismatch is zero. -/
theorem C125_finish (ok : OK P w Sol) (hc : P.Cut k) (tol : K) (phi : Nat → Nat → K) (S : Nat → St F K)
    (hv : ∀ g ∈ P.groups k, NoneIn (P.W g) (S g).bdy) (x : Nat → K) :
    let out := P.finish k true tol phi S x
    out.1 = P.fluxes k phi x ∧ ∀ g ∈ P.groups k,
    (∀ eB, Mismatch (P.W g) (out.2 g).bdy eB → ∃ psi, Solution (P.W g) w (Sol g)
      (P.src out.1 g) (out.2 g).phi (fun _ => 0) eB (out.2 g).bdy psi) ∧
    ∃ s' src, out.2 g = (P.W g).sweep true src s' ∧ (∀ o a, ∀ c < P.M.x.N, src o a c = P.src out.1 g o a c) ∧
      ((∀ side < 2 * (P.W g).dim, (P.W g).bc side = .reflect → ∀ o < 2 ^ (P.W g).dim, ¬ Enters side o → ∀ a < (P.W g).na,
        (out.2 g).bdy side o a = s'.bdy side o a) → Mismatch (P.W g) (out.2 g).bdy fun _ => 0) := by
  intro out
  refine ⟨rfl, fun g hg => ?_⟩
  have hgG := ((mem_groups hc g).1 hg).1
  have h := ok.sw g hgG
  have hp := ok.np g hgG
  have e1 : out.1 = P.fluxes k phi x := rfl
  set f := P.fluxes k phi x with hf
  let b1 : Bd F := if (P.W g).hasRefl then (P.W g).setIn (P.view k x g) (S g).bdy else (S g).bdy
  let Q := P.endGroup f g
  let src := Q.source Q.fixed (P.M.withinScatter g (f g))
  obtain ⟨s0, es0, hs0⟩ : ∃ s0 : St F K, out.2 g = Q.loop src tol 2000 s0 ∧
      s0.bdy = Boundary.set (P.W g).dim (P.W g).na (P.W g).bc b1 := by
    refine ⟨_, Eq.trans (fold_upd _ (fun g s => (P.endGroup f g).loop ((P.endGroup f g).source (P.endGroup f g).fixed
      (P.M.withinScatter g (f g))) tol 2000 ⟨Boundary.set (P.W g).dim (P.W g).na (P.W g).bc s.bdy, f g, s.psi⟩)
      (fun S g => upd_same _ _ _) (fun S g g' hne => upd_ne _ _ hne) _ (groups_nodup hc) _ g) (if_pos hg), ?_⟩
    dsimp only
    congr 1
    refine Eq.trans (congrArg St.bdy (Eq.trans (fold_upd _ (fun g s => if (P.W g).hasRefl then
      { s with bdy := (P.W g).setIn (P.view k x g) s.bdy } else s) ?_ ?_ _ (groups_nodup hc) _ g) (if_pos hg))) ?_
    · intro S g
      split
      · exact upd_same _ _ _
      · rfl
    · intro S g g' hne
      split
      · exact upd_ne _ _ hne
      · rfl
    · simp only [b1]
      split <;> rfl
  have hsrc : ∀ o a, ∀ c < P.M.x.N, src o a c = P.src out.1 g o a c := by
    intro o a c hcN
    have h1 := fixed_plus_within P.M ok.src f g hgG (f g) c hcN
    have h2 : MGSolve.put f g (f g) = f := by
      funext g'
      unfold MGSolve.put
      split
      · next h => rw [h]
      · rfl
    rw [h2] at h1
    rw [e1]
    unfold Prob.src
    rw [← h1]
    simp only [src]
    unfold WGReflect.Prob.source Sweep.sweepSource
    have key : ∀ (l : List (Nat → Nat → Nat → K)) (v : K), l.foldl (fun v d => v + d o a c) v
        = v + (l.map fun d => d o a c).sum := by
      intro l
      induction l with
      | nil => intro v; simp
      | cons d l ih => intro v; rw [List.foldl_cons, ih, List.map_cons, List.sum_cons, add_assoc]
    rw [key]
    rfl
  have h1 : NoneIn (P.W g) b1 := by
    intro side hs hb o ho he a ha i j hi
    simp only [b1]
    cases hr : (P.W g).hasRefl with
    | true =>
      simp only [if_true]
      rw [WGReflect.get_setIn h _ _ side o a i j hs hi, if_neg (fun h' => by
        have := ((WGReflect.mem_locs h _ _ _ _ _).1 h').2.1; rw [hb] at this; cases this)]
      exact hv g hg side hs hb o ho he a ha i j hi
    | false =>
      simp only [Bool.false_eq_true, if_false]
      exact hv g hg side hs hb o ho he a ha i j hi
  have hQ : Sweeps Q w (Sol g) := ⟨h.d1, h.d3, h.order, h.face, h.other, h.inc, h.solves, h.lin, h.det⟩
  obtain ⟨s', e, hss⟩ := WGReflect.loop_last hQ hp src tol 1999 s0
  have eo : out.2 g = (P.W g).sweep true src s' := es0.trans e
  rw [hs0] at hss
  have hS : Sides (P.W g) (out.2 g).bdy := by
    rw [eo]
    exact WGReflect.sides_sweep h hp true _ s' (WGReflect.sides_same h hss (WGReflect.sides_set h _ h1))
  refine ⟨?_, s', src, eo, hsrc, ?_⟩
  · intro eB hm
    obtain ⟨psi, c, fl⟩ := h.solves true src s'
    change ∀ o < 2 ^ (P.W g).dim, ∀ a < (P.W g).na, Sol g (src o a) o a
      (fun f => ((P.W g).sweep true src s').bdy f o a) (psi o a) at c
    change ∀ c < (P.W g).N, ((P.W g).sweep true src s').phi c = _ at fl
    rw [← eo] at c fl
    refine ⟨psi, ?_, fun i hi => by rw [add_zero, fl i hi], hS.vacuum, hS.given, hm⟩
    intro o ho a ha
    exact sol_congr h ho (c o ho a ha) fun c hcN => (hsrc o a c (by rw [ok.cells g] at hcN; exact hcN)).symm
  · intro hq
    rw [eo] at hq ⊢
    exact WGReflect.C124_settled h hp _ s' hq

/-- Source iteration in a group with the sweeper's boundary updates on: a pass that leaves cell fluxes and the
    fluxes leaving through reflecting sides as they were has found the group's flux. -/
theorem C125_si (ok : OK P w Sol) (phi : Nat → Nat → K) (g : Nat) (hgG : g < P.M.x.mat.G) (s : St F K)
    (hs : Sides (P.W g) s.bdy) (hphi : ∀ c < P.M.x.N, (siPass (P.siGroup phi g) true s).phi c = s.phi c)
    (hq : ∀ side < 2 * (P.W g).dim, (P.W g).bc side = .reflect → ∀ o < 2 ^ (P.W g).dim, ¬ Enters side o →
      ∀ a < (P.W g).na, (siPass (P.siGroup phi g) true s).bdy side o a = s.bdy side o a) :
    GroupFlux P w Sol (MGSolve.put phi g s.phi) g := by
  have h := ok.sw g hgG
  have hp := ok.np g hgG
  let Q := P.siGroup phi g
  have hQ : Sweeps Q w (Sol g) := ⟨h.d1, h.d3, h.order, h.face, h.other, h.inc, h.solves, h.lin, h.det⟩
  let src := Q.source Q.fixed (Q.scat (Q.moments s.phi))
  obtain ⟨psi, c, f⟩ := hQ.solves true src s
  have hS := WGReflect.sides_sweep hQ hp true src s ⟨hs.vacuum, hs.given⟩
  refine C125_group ok phi g hgG s.phi (siPass (P.siGroup phi g) true s).bdy psi
    ⟨fun o ho a ha => c o ho a ha, fun i hi => ?_, hS.vacuum, hS.given, WGReflect.C124_settled hQ hp src s hq⟩
  rw [add_zero, ← hphi i (by rw [ok.cells g] at hi; exact hi)]
  exact f i hi

omit [IsStrictOrderedRing K] in
/-- With them off, source iteration never changes what enters, at reflecting sides as elsewhere. -/
theorem C125_frozen (ok : OK P w Sol) (phi : Nat → Nat → K) (g : Nat) (hgG : g < P.M.x.mat.G) (tol : K) (n : Nat)
    (s : St F K) : ∀ side < 2 * (P.W g).dim, ∀ o < 2 ^ (P.W g).dim, Enters side o → ∀ a < (P.W g).na,
      (siLoop (P.siGroup phi g) false tol n s).bdy side o a = s.bdy side o a := by
  have h := ok.sw g hgG
  have hQ : Sweeps (P.siGroup phi g) w (Sol g) :=
    ⟨h.d1, h.d3, h.order, h.face, h.other, h.inc, h.solves, h.lin, h.det⟩
  intro side hs o ho he a ha
  have h1 : ∀ s : St F K, (siPass (P.siGroup phi g) false s).bdy side o a = s.bdy side o a :=
    fun s => WGReflect.sweep_off hQ _ s o a ho ha side hs he
  induction n generalizing s with
  | zero => rfl
  | succ n ih =>
    unfold siLoop
    dsimp only
    split
    · exact h1 s
    · rw [ih, h1]

omit [IsStrictOrderedRing K] in
theorem flag_kept (tol : K) (n : Nat) (l : List Nat) (r : Run F K) : (l.foldl (P.siSolve tol n) r).flag = r.flag := by
  induction l generalizing r with
  | nil => rfl
  | cons a l ih => rw [List.foldl_cons, ih]; rfl

omit [IsStrictOrderedRing K] in
/-- A solve of a non-empty block with reflecting sides turns them off for good. -/
theorem C125_flag (ang : Bool) (tol : K) (n : Nat) (lin) (r : Run F K)
    (hr : (P.W 0).hasRefl = true) (ha : active P.M.x.mat.G P.M.x.adjoint k ≠ 0) :
    (P.solve k ang tol n lin r).flag = false := by
  unfold Prob.solve
  dsimp only
  rw [if_neg ha, hr]
  rfl

end ordered

end main

/-! ## The three geometries -/

section geom
open Detran.Sweep (LinEq1 LinEq2 LinEq3 Solves1 Solves2 Solves3)
variable {K : Type} [Field K] [LinearOrder K]

omit [LinearOrder K] in
theorem bsize_congr {F : Type} (A B : WGReflect.Prob F K) (hd : A.dim = B.dim) (hna : A.na = B.na) (hn : A.n = B.n)
    (hr : ∀ s, A.bc s = .reflect ↔ B.bc s = .reflect) : A.bsize = B.bsize := by
  have : A.refl = B.refl := by
    funext s
    rw [Bool.eq_iff_iff, WGReflect.refl_iff, WGReflect.refl_iff, hr]
  unfold WGReflect.Prob.bsize
  rw [hd, hna, hn, this]

/-- A 1-D problem: any linear scheme in each group, side conditions by group. -/
def mg1 (M : MGSolve.Prob K) (sch : Nat → Nat → Nat → K → K → K × K) (w : Nat → K) (nx na : Nat) (up : Bool)
    (bc : Nat → Nat → BC K) (order : List Nat) (mtod : Nat → Nat → K) (disc : Nat → List (Nat → Nat → Nat → K)) :
    Prob K K :=
  ⟨M, fun g => WGReflect.prob1 (sch g) w nx na up (bc g) order (fun _ _ => 0) (fun _ => 0) mtod (disc g)⟩

theorem C125_ok1 (M : MGSolve.Prob K) (hM : M.OK) (sch) (hsch : ∀ g a i, LinEq1 (sch g a i)) (w : Nat → K) (na up)
    (bc : Nat → Nat → BC K) (order) (hord : order.Perm (List.range 2)) (mtod disc)
    (hr : ∀ g s, bc g s = .reflect ↔ bc 0 s = .reflect) (hp : ∀ g, ∀ s < 2, bc g s ≠ .periodic) :
    OK (mg1 M sch w M.x.N na up bc order mtod disc) w
      (fun g q o a b p => Solves1 M.x.N (fun i => sch g a i (q i)) o b p) where
  src := hM
  cells := fun _ => rfl
  bsize := fun g => bsize_congr _ _ rfl rfl rfl (hr g)
  sw := fun g _ => WGReflect.sweeps1 (sch g) (hsch g) w _ na up (bc g) order hord _ _ _ _
  np := fun g _ => hp g

def mg2 (M : MGSolve.Prob K) (sch : Nat → Nat → Nat → Nat → K → K × K → K × (K × K)) (w : Nat → K) (nx ny na : Nat)
    (up : Bool) (bc : Nat → Nat → BC (Nat → K)) (order : List Nat) (mtod : Nat → Nat → K)
    (disc : Nat → List (Nat → Nat → Nat → K)) : Prob (Nat → K) K :=
  ⟨M, fun g => WGReflect.prob2 (sch g) w nx ny na up (bc g) order (fun _ _ => 0) (fun _ => 0) mtod (disc g)⟩

theorem C125_ok2 (M : MGSolve.Prob K) (hM : M.OK) (sch) (hsch : ∀ g a i j, LinEq2 (sch g a i j)) (w : Nat → K)
    (nx ny na up) (hN : nx * ny = M.x.N) (bc : Nat → Nat → BC (Nat → K)) (order) (hord : order.Perm (List.range 4))
    (mtod disc) (hr : ∀ g s, bc g s = .reflect ↔ bc 0 s = .reflect) (hp : ∀ g, ∀ s < 4, bc g s ≠ .periodic) :
    OK (mg2 M sch w nx ny na up bc order mtod disc) w
      (fun g q o a b p => Solves2 nx ny (fun i j => sch g a i j (q (i + j * nx))) o b p) where
  src := hM
  cells := fun _ => hN
  bsize := fun g => bsize_congr _ _ rfl rfl rfl (hr g)
  sw := fun g _ => WGReflect.sweeps2 (sch g) (hsch g) w nx ny na up (bc g) order hord _ _ _ _
  np := fun g _ => hp g

def mg3 (M : MGSolve.Prob K) (sch : Nat → Nat → Nat → Nat → Nat → K → K × K × K → K × (K × K × K)) (w : Nat → K)
    (nx ny nz na : Nat) (up : Bool) (bc : Nat → Nat → BC (Nat → Nat → K)) (order : List Nat) (mtod : Nat → Nat → K)
    (disc : Nat → List (Nat → Nat → Nat → K)) : Prob (Nat → Nat → K) K :=
  ⟨M, fun g => WGReflect.prob3 (sch g) w nx ny nz na up (bc g) order (fun _ _ => 0) (fun _ => 0) mtod (disc g)⟩

theorem C125_ok3 (M : MGSolve.Prob K) (hM : M.OK) (sch) (hsch : ∀ g a i j l, LinEq3 (sch g a i j l)) (w : Nat → K)
    (nx ny nz na up) (hfit : nx ≤ 2 ^ 32) (hN : nx * ny * nz = M.x.N) (bc : Nat → Nat → BC (Nat → Nat → K)) (order)
    (hord : order.Perm (List.range 8)) (mtod disc) (hr : ∀ g s, bc g s = .reflect ↔ bc 0 s = .reflect)
    (hp : ∀ g, ∀ s < 6, bc g s ≠ .periodic) :
    OK (mg3 M sch w nx ny nz na up bc order mtod disc) w
      (fun g q o a b p => Solves3 nx ny nz (fun i j l => sch g a i j l (q (i + j * nx + l * nx * ny))) o b p) where
  src := hM
  cells := fun _ => hN
  bsize := fun g => bsize_congr _ _ rfl rfl rfl (hr g)
  sw := fun g _ => WGReflect.sweeps3 (sch g) (hsch g) w nx ny nz na hfit up (bc g) order hord _ _ _ _
  np := fun g _ => hp g

end geom

/-! ## Concrete cases -/

section cases
open Detran.Sweep (Solves1)
open Detran.WGReflect (dd dd_lin half half_np zeros)

/-- The slab of C124 (one cell, reflecting on the left, vacuum on the right) with several groups, source `q`. -/
def slabs (G : Nat) (ops : List (Material.Op ℚ)) (q : ℚ) : Prob ℚ ℚ :=
  mg1 { toy G ops false 0 0 with q := fun _ _ => q } (fun _ => dd) (fun _ => 1 / 2) 1 1 true (fun _ => half) [1, 0]
    (fun _ _ => 1) (fun _ => [])

abbrev eqs : Nat → (Nat → ℚ) → Nat → Nat → (Nat → ℚ) → (Nat → ℚ) → Prop :=
  fun _ q o a b p => Solves1 1 (fun i => dd a i (q i)) o b p

theorem slabs_ok (G : Nat) (ops : List (Material.Op ℚ)) (q : ℚ) (h : (toy G ops false 0 0).OK) :
    OK (slabs G ops q) (fun _ => 1 / 2) eqs :=
  C125_ok1 { toy G ops false 0 0 with q := fun _ _ => q } ⟨h.fin, h.nn, h.map, h.add, h.loc⟩ _ (fun _ => dd_lin) _ _ _ _
    _ (by decide) _ _ (fun _ _ => Iff.rfl) (fun _ => half_np)

/-- Each of its groups. -/
def slabW : WGReflect.Prob ℚ ℚ :=
  WGReflect.prob1 dd (fun _ => 1 / 2) 1 1 true half [1, 0] (fun _ _ => 0) (fun _ => 0) (fun _ _ => 1) []

/-- What a group's flux is there. -/
theorem slabs_flux (G : Nat) (ops : List (Material.Op ℚ)) (q : ℚ) (phi : Nat → Nat → ℚ) (g : Nat) :
    GroupFlux (slabs G ops q) (fun _ => 1 / 2) eqs phi g ↔ phi g 0 = 5 / 9 * (slabs G ops q).M.source phi g 0 := by
  have hsrc : ∀ o a, (slabs G ops q).src phi g o a 0 = (slabs G ops q).M.source phi g 0 := by
    intro o a
    change (slabs G ops q).M.source phi g 0 * 1 + ([] : List ℚ).sum = _
    simp
  constructor
  · rintro ⟨bd, psi, hS⟩
    have hS : Solution slabW (fun _ => 1 / 2) (eqs g) ((slabs G ops q).src phi g) (phi g) (fun _ => 0) (fun _ => 0) bd
      psi := hS
    obtain ⟨V, v1, v2, v3⟩ := hS.cells 0 (by decide) 0 (by decide)
    obtain ⟨U, u1, u2, u3⟩ := hS.cells 1 (by decide) 0 (by decide)
    have e1 : bd 1 1 0 = 0 := hS.vacuum 1 (by decide) rfl 1 (by decide) (by decide) 0 (by decide) 0 0
      (by unfold InFace; decide)
    have e2 : bd 0 0 0 - bd 0 1 0 = 0 := hS.reflect 0 (by decide) rfl 0 (by decide) (by decide) 1 (by decide) 0
      (by decide) 0 0 (by unfold InFace; decide)
    have e3 : phi g 0 + 0 = ∑ o ∈ range 2, ∑ a ∈ range 1, 1 / 2 * psi o a 0 := hS.flux 0 (by decide)
    have h1 : dd 0 0 ((slabs G ops q).src phi g 0 0 0) (V 0) = (psi 0 0 0, V 1) := v3 0 (by decide)
    have h2 : dd 0 0 ((slabs G ops q).src phi g 1 0 0) (U 0) = (psi 1 0 0, U 1) := u3 0 (by decide)
    rw [hsrc] at h1 h2
    have v1' : V 0 = bd 0 0 0 := v1
    have u1' : U 0 = bd 1 1 0 := u1
    have u2' : bd 0 1 0 = U 1 := u2
    unfold dd at h1 h2
    obtain ⟨k1, k2⟩ := Prod.mk.inj h1
    obtain ⟨k3, k4⟩ := Prod.mk.inj h2
    simp only [sum_range_succ, sum_range_zero] at e3
    linarith
  · intro h
    set t := (slabs G ops q).M.source phi g 0
    refine ⟨fun side o _ => if side = 0 then 2 / 3 * t else if o = 0 then 8 / 9 * t else 0,
      fun o _ _ => if o = 0 then 7 / 9 * t else 1 / 3 * t, ?_, ?_, ?_, ?_, ?_⟩
    · intro o ho a ha
      have ho' : o < 2 := ho
      have ha' : a < 1 := ha
      obtain rfl : a = 0 := by omega
      obtain rfl | rfl : o = 0 ∨ o = 1 := by omega
      · refine ⟨fun i => if i = 0 then 2 / 3 * t else 8 / 9 * t, rfl, rfl, ?_⟩
        intro i hi
        obtain rfl : i = 0 := by omega
        change dd 0 0 ((slabs G ops q).src phi g 0 0 0) (2 / 3 * t) = (7 / 9 * t, 8 / 9 * t)
        rw [hsrc]
        unfold dd
        exact Prod.ext (by ring) (by ring)
      · refine ⟨fun i => if i = 0 then 0 else 2 / 3 * t, rfl, rfl, ?_⟩
        intro i hi
        obtain rfl : i = 0 := by omega
        change dd 0 0 ((slabs G ops q).src phi g 1 0 0) 0 = (1 / 3 * t, 2 / 3 * t)
        rw [hsrc]
        unfold dd
        exact Prod.ext (by ring) (by ring)
    · intro c hcN
      have hcN' : c < 1 := hcN
      obtain rfl : c = 0 := by omega
      change phi g 0 + 0 = ∑ o ∈ range 2, ∑ a ∈ range 1, 1 / 2 * (if o = 0 then 7 / 9 * t else 1 / 3 * t)
      simp only [sum_range_succ, sum_range_zero]
      rw [h]
      norm_num
      ring
    · intro side hs hb o ho he a ha i j hi
      have hs' : side < 2 := hs
      have ho' : o < 2 := ho
      change half side = _ at hb
      change (if side = 0 then 2 / 3 * t else if o = 0 then 8 / 9 * t else 0) = 0
      unfold half at hb
      split at hb
      · cases hb
      · next h0 =>
        obtain rfl : side = 1 := by omega
        obtain rfl | rfl : o = 0 ∨ o = 1 := by omega
        · exact absurd he (by decide)
        · simp
    · intro side hs ps hb
      change half side = _ at hb
      unfold half at hb
      split at hb <;> cases hb
    · intro side hs hb o ho he o' hm a ha i j hi
      change half side = _ at hb
      unfold half at hb
      split at hb
      · next h0 =>
        subst h0
        change (2 / 3 * t - 2 / 3 * t) = 0
        ring
      · cases hb

theorem slabs_mismatch (G : Nat) (ops : List (Material.Op ℚ)) (q : ℚ) (g : Nat) (b : Bd ℚ) (h : b 0 0 0 = b 0 1 0) :
    Mismatch ((slabs G ops q).W g) b fun _ => 0 := by
  have := WGReflect.half_mismatch 0 b (by
    intro o ho o' ho' he hne
    obtain rfl | rfl : o = 0 ∨ o = 1 := by omega
    · obtain rfl | rfl : o' = 0 ∨ o' = 1 := by omega
      · exact absurd he hne
      · rw [h, sub_self]
    · exact absurd he (by decide))
  exact this

/-- Group 0 alone, by an exact within-group solver. -/
def wg0 (_ : Nat → Nat → ℚ) (_ _ : Nat) : ℚ := 5 / 9

theorem coupled_src0 (phi : Nat → Nat → ℚ) : (slabs 3 coupled 1).M.source phi 0 0 = 1 := by
  have h : ∀ gp < 3, Material.xs (slabs 3 coupled 1).M.x.mat.sigS false 0 gp 0 = 0 := by decide +kernel
  change 1 + ∑ gp ∈ range 3, phi gp 0 * Material.xs (slabs 3 coupled 1).M.x.mat.sigS false 0 gp 0 + 0 = 1
  rw [sum_eq_zero fun gp hgp => by rw [h gp (mem_range.1 hgp), mul_zero], add_zero, add_zero]

/-- Groups 1 and 2 of the three coupled groups by GMRES after group 0: every group ends with its flux. -/
example : ∀ g < 3, GroupFlux (slabs 3 coupled 1) (fun _ => 1 / 2) eqs
    ((slabs 3 coupled 1).fluxes 1 (passes wg0 (gsGroups 3 false 1) fun _ _ => 0) fun p =>
      if p = 0 then 190 / 67 else if p = 1 then 1285 / 603 else if p = 2 then 4280 / 1809 else 380 / 201) g := by
  refine C125_balanced (slabs_ok 3 coupled 1 (coupled_ok false 0 0)) ⟨by decide, by decide⟩ ?_ wg0 ?_ ?_ (1 / 1000)
    _ (fun _ => zeros) (fun _ => zeros) _ ?_ ?_
  · have : ∀ g < 3, 1 ≤ g → (slabs 3 coupled 1).M.x.mat.lower g false ≤ 1 := by decide +kernel
    exact this
  · intro phi g hg hgk
    have h0 : ∀ g < 3, g ∉ (slabs 3 coupled 1).groups 1 → g = 0 := by decide
    obtain rfl := h0 g hg hgk
    rw [slabs_flux, coupled_src0]
    exact (mul_one _).symm
  · intro g hg hgk
    have h0 : ∀ g < 3, g ∉ (slabs 3 coupled 1).groups 1 → g = 0 := by decide
    obtain rfl := h0 g hg hgk
    refine ⟨rfl, fun gp hgp _ c _ => ?_⟩
    have h : ∀ gp < 3, Material.xs (slabs 3 coupled 1).M.x.mat.sigS false 0 gp 0 = 0 := by decide +kernel
    exact h gp hgp
  · intro g hg
    refine slabs_mismatch _ _ _ _ _ ?_
    have h : ∀ g < 3, (((slabs 3 coupled 1).rhs 1 (1 / 1000) (passes wg0 (gsGroups 3 false 1) fun _ _ => 0)
        (fun _ => zeros)).1 g).bdy 0 0 0 = (((slabs 3 coupled 1).rhs 1 (1 / 1000)
        (passes wg0 (gsGroups 3 false 1) fun _ _ => 0) (fun _ => zeros)).1 g).bdy 0 1 0 := by decide +kernel
    have h0 : ∀ g ∈ (slabs 3 coupled 1).groups 1, g < 3 := by decide
    exact h g (h0 g hg)
  · unfold SolvesSystem
    decide +kernel

/-- The same fluxes satisfy the groups' equations one by one. -/
example : (190 / 67 : ℚ) = 5 / 9 * (1 + 5 / 9 + 1 / 2 * (190 / 67) + 1285 / 603) ∧
    (1285 / 603 : ℚ) = 5 / 9 * (1 + 190 / 67) := by norm_num

def x12 : Nat → ℚ := fun p =>
  if p = 0 then 190 / 67 else if p = 1 then 1285 / 603 else if p = 2 then 4280 / 1809 else 380 / 201

/-- `C125_complete`: these fluxes, known to be the group fluxes, come from a solution of the linear system. -/
example : ∃ x, SolvesSystem (slabs 3 coupled 1) 1 (1 / 1000) (fun _ _ => 5 / 9) (fun _ => zeros) (fun _ => zeros) x ∧
    ∀ g ∈ (slabs 3 coupled 1).groups 1, ∀ c < 1, (slabs 3 coupled 1).fluxes 1 (fun _ _ => 5 / 9) x g c
      = (slabs 3 coupled 1).fluxes 1 (fun _ _ => 5 / 9) x12 g c := by
  have h0 : ∀ g ∈ (slabs 3 coupled 1).groups 1, g < 3 ∧ 1 ≤ g := by decide
  refine C125_complete (slabs_ok 3 coupled 1 (coupled_ok false 0 0)) ⟨by decide, by decide⟩ ?_ (1 / 1000)
    _ _ (fun _ => zeros) (fun _ => zeros) ?_ (fun gp hgp => fluxes_out _ _ gp hgp) ?_
  · have : ∀ g < 3, 1 ≤ g → (slabs 3 coupled 1).M.x.mat.lower g false ≤ 1 := by decide +kernel
    exact this
  · intro g hg
    refine slabs_mismatch _ _ _ _ _ ?_
    have h : ∀ g < 3, (((slabs 3 coupled 1).rhs 1 (1 / 1000) (fun _ _ => 5 / 9) (fun _ => zeros)).1 g).bdy 0 0 0
        = (((slabs 3 coupled 1).rhs 1 (1 / 1000) (fun _ _ => 5 / 9) (fun _ => zeros)).1 g).bdy 0 1 0 := by decide +kernel
    exact h g (h0 g hg).1
  · intro g hg
    rw [slabs_flux]
    have h : ∀ g < 3, 1 ≤ g → (slabs 3 coupled 1).fluxes 1 (fun _ _ => 5 / 9) x12 g 0
        = 5 / 9 * (slabs 3 coupled 1).M.source ((slabs 3 coupled 1).fluxes 1 (fun _ _ => 5 / 9) x12) g 0 := by
      decide +kernel
    exact h g (h0 g hg).1 (h0 g hg).2

/-- With the angular option the flux entering group 1 at the reflecting side is two thirds of its source in the end;
    without it the state holds the collided part. -/
example : (((slabs 3 coupled 1).finish 1 true (1 / 1000) (fun _ _ => 5 / 9) (fun _ => zeros) x12).2 1).bdy 0 0 0
      = 2 / 3 * (342 / 67) ∧
    (((slabs 3 coupled 1).finish 1 false (1 / 1000) (fun _ _ => 5 / 9) (fun _ => zeros) x12).2 1).bdy 0 0 0
      = 4280 / 1809 := by decide +kernel

/-! ### A second solve with source iteration in the groups -/

/-- Two groups without scattering; group 0 by source iteration, group 1 by GMRES, whose system there is solved by its
    right-hand side. -/
def direct (S : Nat → St ℚ ℚ) (b : Nat → ℚ) : (Nat → St ℚ ℚ) × (Nat → ℚ) := (S, b)

/-- The first solve starts with the boundary updates on (WGSolverSI.cc:25). -/
def start : Run ℚ ℚ := ⟨fun _ => zeros, fun _ _ => 0, true⟩

/-- A solve with source 1. -/
def once : Run ℚ ℚ := (slabs 2 [] 1).solve 1 false (1 / 1000) 100 direct start

/-- Solve with source 1, then with source `q`. -/
def twice (q : ℚ) : Run ℚ ℚ := (slabs 2 [] q).solve 1 false (1 / 1000) 100 direct once

theorem none_ok : (toy 2 [] false 0 0).OK := toy_ok _ _ _ _ _ rfl fun _ _ _ => le_rfl

theorem none_src (q : ℚ) (phi : Nat → Nat → ℚ) (g : Nat) : (slabs 2 [] q).M.source phi g 0 = q := by
  have h : ∀ gp, Material.xs (slabs 2 [] q).M.x.mat.sigS false g gp 0 = 0 := fun _ => rfl
  change q + ∑ gp ∈ range 2, phi gp 0 * Material.xs (slabs 2 [] q).M.x.mat.sigS false g gp 0 + 0 = q
  rw [sum_eq_zero fun gp _ => by rw [h gp, mul_zero], add_zero, add_zero]

/-- Full statement: whatever was solved before with another source, a group whose source iteration has settled has
    its flux. -/
def C125RepeatClaim : Prop := ∀ q : ℚ,
  (siPass ((slabs 2 [] q).siGroup (twice q).phi 0) once.flag ((twice q).S 0)).phi 0 = ((twice q).S 0).phi 0 →
  (∀ side < 2, ∀ o < 2, (siPass ((slabs 2 [] q).siGroup (twice q).phi 0) once.flag ((twice q).S 0)).bdy side o 0
    = ((twice q).S 0).bdy side o 0) →
  GroupFlux (slabs 2 [] q) (fun _ => 1 / 2) eqs (twice q).phi 0

/-- It fails: with twice the source the flux found is `8/9`, the true one `10/9`, since the flux entering at the
    reflecting side is still that of the first solve. -/
theorem C125_repeat_fails : ¬ C125RepeatClaim := by
  intro hc
  have h := hc 2 (by decide +kernel) (by decide +kernel)
  rw [slabs_flux, none_src] at h
  have e : (twice 2).phi 0 0 = 8 / 9 := by decide +kernel
  rw [e] at h
  norm_num at h

/-- `C125_si` in the first solve. -/
example : GroupFlux (slabs 2 [] 1) (fun _ => 1 / 2) eqs (MGSolve.put (fun _ _ => 0) 0 (once.S 0).phi) 0 := by
  refine C125_si (slabs_ok 2 [] 1 none_ok) _ 0 (by decide) _ ?_ (by decide +kernel) ?_
  · constructor
    · intro side hs hb o ho he a ha i j hi
      have ha' : a < 1 := ha
      obtain rfl : a = 0 := by omega
      have h1 : side = 1 := by
        have hs' : side < 2 := hs
        by_contra h
        obtain rfl : side = 0 := by omega
        cases hb
      subst h1
      have k : ∀ o < 2, Enters 1 o → (once.S 0).bdy 1 o 0 = 0 := by decide +kernel
      exact k o ho he
    · intro side hs ps hb
      change half side = _ at hb
      unfold half at hb
      split at hb <;> cases hb
  · intro side hs _ o ho _ a ha
    have ha' : a < 1 := ha
    obtain rfl : a = 0 := by omega
    have k : ∀ side < 2, ∀ o < 2, (siPass ((slabs 2 [] 1).siGroup (fun _ _ => 0) 0) true (once.S 0)).bdy side o 0
      = (once.S 0).bdy side o 0 := by decide +kernel
    exact k side hs o ho

/-- The first solve is right, GMRES' group is right both times, and the updates are off after the first solve. -/
example : once.phi 0 0 = 5 / 9 ∧
    once.phi 1 0 = 5 / 9 ∧ (twice 2).phi 1 0 = 10 / 9 ∧
    once.flag = false := by decide +kernel

end cases



end Detran.MGReflect
