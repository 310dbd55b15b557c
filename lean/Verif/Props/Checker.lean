import Verif.Props.SIConv
import Verif.Lemmas.Positive

/-!
# When a group determines the fluxes at its sides (C149)
-/

namespace Detran.WGReflect

open Detran.Sweep
open Detran.Boundary (Bd BC Loc Enters Mirror faceCells)
open Finset

/-! ## Specification -/

section spec
variable {F K : Type} [Field K]

/-- `phi`, with face fluxes `bd` and angular fluxes `psi`, solves the discrete-ordinates equations of the group: the
    source is the scatter of `phi` plus the fixed source, `phi` is the weighted sum of `psi`, and every side meets its
    condition. -/
def Solved (P : Prob F K) (w : Nat → K) (Sol : (Nat → K) → Nat → Nat → (Nat → F) → (Nat → K) → Prop)
    (phi : Nat → K) (bd : Bd F) (psi : Nat → Nat → Nat → K) : Prop :=
  Solution P w Sol (fun o a c => (P.fixed c + P.scat (P.moments phi) c) * P.mtod o a) phi (fun _ => 0) (fun _ => 0)
    bd psi

/-- The same angular flux in every cell and direction. -/
def AgreeCells (P : Prob F K) (psi psi' : Nat → Nat → Nat → K) : Prop :=
  ∀ o < 2 ^ P.dim, ∀ a < P.na, ∀ c < P.N, psi o a c = psi' o a c

/-- The same flux of every direction, entering and leaving, at one side. -/
def AgreeSide (P : Prob F K) (side : Nat) (bd bd' : Bd F) : Prop :=
  ∀ o < 2 ^ P.dim, ∀ a < P.na, ∀ i j, InFace P side i j → P.get (bd side o a) i j = P.get (bd' side o a) i j

/-- A pattern of alternating signs along the sides of a rectangle: with the sign of the direction along the side,
    falling and rising with the cells' widths. -/
def alternating (mu eta : K) (dx dy : Nat → K) (nx ny side o k : Nat) : K :=
  if side = 0 then (octantSign o 1 : K) * (-1) ^ k * (eta / dy k)
  else if side = 1 then (octantSign o 1 : K) * (-1) ^ (nx + k) * (eta / dy k)
  else if side = 2 then -((octantSign o 0 : K) * (-1) ^ k * (mu / dx k))
  else -((octantSign o 0 : K) * (-1) ^ (ny + k) * (mu / dx k))

/-- A pattern of alternating signs around one layer of a box, at the sides across `y` and `z` only; every layer in `x`
    has its own amount. -/
def layered (eta xi : K) (dy dz : Nat → K) (ny nz : Nat) (amount : Nat → K) (side o i j : Nat) : K :=
  if side < 2 then 0
  else if side = 2 then (octantSign o 2 : K) * (-1) ^ i * (xi / dz i) * amount j
  else if side = 3 then (octantSign o 2 : K) * (-1) ^ (ny + i) * (xi / dz i) * amount j
  else if side = 4 then -((octantSign o 1 : K) * (-1) ^ i * (eta / dy i) * amount j)
  else -((octantSign o 1 : K) * (-1) ^ (nz + i) * (eta / dy i) * amount j)

/-- Fluxes at the sides that go with no flux in any cell: they solve the cell equations without source, nothing enters
    through sides that do not reflect, and at those that do the mirror directions have the same. -/
structure Silent (P : Prob F K) (Sol : (Nat → K) → Nat → Nat → (Nat → F) → (Nat → K) → Prop) (pt : Bd F) : Prop where
  cells : ∀ o < 2 ^ P.dim, ∀ a < P.na, ∃ p, (∀ c < P.N, p c = 0) ∧ Sol (fun _ => 0) o a (fun f => pt f o a) p
  none : ∀ side < 2 * P.dim, P.bc side ≠ .reflect → ∀ o < 2 ^ P.dim, Enters side o → ∀ a < P.na, ∀ i j,
    InFace P side i j → P.get (pt side o a) i j = 0
  mirror : ∀ side < 2 * P.dim, P.bc side = .reflect → ∀ o < 2 ^ P.dim, Enters side o → ∀ o', Mirror P.dim side o o' →
    ∀ a < P.na, ∀ i j, InFace P side i j → P.get (pt side o' a) i j = P.get (pt side o a) i j

/-- One boundary is another with a pattern added. -/
def Shifted (P : Prob F K) (pt bd bd' : Bd F) : Prop :=
  ∀ side < 2 * P.dim, ∀ o < 2 ^ P.dim, ∀ a < P.na, ∀ i j, InFace P side i j →
    P.get (bd' side o a) i j = P.get (bd side o a) i j + P.get (pt side o a) i j

end spec

section kept
variable {F K : Type} [Field K] [LinearOrder K] [IsStrictOrderedRing K] {P : Prob F K} {w : Nat → K}
  {Sol : (Nat → K) → Nat → Nat → (Nat → F) → (Nat → K) → Prop}

/-- What enters through a reflecting side in a sweep is what the mirror direction had there before if that comes later,
    and what it has after the sweep if it came earlier. -/
theorem sweep_rank (h : Sweeps P w Sol) (hp : ∀ s < 2 * P.dim, P.bc s ≠ .periodic) :
    ∃ rank : Nat → Nat → Nat, ∀ (src) (s : St F K) (o o' a : Nat), o < 2 ^ P.dim → a < P.na →
    ∀ f < 2 * P.dim, Enters f o → P.bc f = .reflect → Mirror P.dim f o o' →
    (¬ rank o' a < rank o a → (P.sweep true src s).bdy f o a = s.bdy f o' a) ∧
    (rank o' a < rank o a → (P.sweep true src s).bdy f o a = (P.sweep true src s).bdy f o' a) := by
  refine ⟨fun o a => (pairs P.order P.na).idxOf (o, a), fun src s o o' a ho ha f hf he hr hm => ?_⟩
  have hne : o' ≠ o := fun e => Boundary.mirror_leaves P.dim h.d1 h.d3 f hf o o' ho he hm (e ▸ he)
  have hnd : (pairs P.order P.na).Nodup := pairs_nodup (h.order.nodup_iff.2 List.nodup_range) P.na
  have hmem : ∀ o' < 2 ^ P.dim, (o', a) ∈ pairs P.order P.na := fun o' ho' =>
    mem_pairs.2 ⟨h.order.mem_iff.2 (List.mem_range.2 ho'), ha⟩
  obtain ⟨L1, L2, hL⟩ := List.append_of_mem (hmem o ho)
  have keep : ∀ (L : List (Nat × Nat)) (s : St F K) (q : Nat × Nat), q ∉ L → ∀ f,
      (L.foldl (fun s p => P.step true src s p.1 p.2) s).bdy f q.1 q.2 = s.bdy f q.1 q.2 := by
    intro L
    induction L with
    | nil => intros; rfl
    | cons p L ih =>
      intro s q hq f
      rw [List.foldl_cons, ih _ q (fun h' => hq (by simp [h'])) f]
      exact h.other true src s p q (fun e => hq (by simp [e])) f
  have es : P.sweep true src s = (pairs P.order P.na).foldl (fun s p => P.step true src s p.1 p.2)
      { s with phi := fun _ => 0 } := sweepWith_eq _ _ _ _
  rw [hL] at hnd es ⊢
  rw [List.foldl_append, List.foldl_cons] at es
  have hn := List.nodup_append.1 hnd
  have hn2 := List.nodup_cons.1 hn.2.1
  let m := L1.foldl (fun s p => P.step true src s p.1 p.2) { s with phi := fun _ => 0 }
  have hu : (P.sweep true src s).bdy f o a = m.bdy f o' a := by
    rw [es, keep L2 _ (o, a) hn2.1 f, h.inc true src _ o ho a f hf he]
    refine Boundary.C30_boundary_angle P.dim h.d1 h.d3 P.bc m.bdy f o o' a hf ho he hm hr ?_
    exact hp _ (Boundary.opp_facts P.dim h.d1 h.d3 f hf).1
  have ro : (L1 ++ (o, a) :: L2).idxOf (o, a) = L1.length := by
    rw [List.idxOf_append_of_notMem (fun h' => hn.2.2 _ h' (o, a) (by simp) rfl), List.idxOf_cons_self, Nat.add_zero]
  have ri : (L1 ++ (o, a) :: L2).idxOf (o', a) < L1.length ↔ (o', a) ∈ L1 := by
    by_cases h1 : (o', a) ∈ L1
    · rw [List.idxOf_append_of_mem h1]
      exact ⟨fun _ => h1, fun _ => List.idxOf_lt_length_of_mem h1⟩
    · rw [List.idxOf_append_of_notMem h1]
      exact ⟨fun h' => absurd h' (by omega), fun h' => absurd h' h1⟩
  dsimp only
  rw [ro, ri]
  refine ⟨fun h1 => ?_, fun h1 => ?_⟩
  · rw [hu]
    exact keep L1 { s with phi := fun _ => 0 } (o', a) h1 f
  · rw [hu]
    have h2 : (o', a) ∉ L2 := fun h' => hn.2.2 _ h1 (o', a) (by simp [h']) rfl
    rw [es, keep L2 _ (o', a) h2 f]
    exact (h.other true src _ (o, a) (o', a) (fun e => hne (Prod.mk.inj e).1) f).symm

/-- A sweep hands a silent pattern on. -/
theorem sweep_shifted (h : Sweeps P w Sol) (hp : ∀ s < 2 * P.dim, P.bc s ≠ .periodic) {pt : Bd F} (hpt : Silent P Sol pt)
    (src) (s s' : St F K) (hs : Shifted P pt s.bdy s'.bdy) :
    Shifted P pt (P.sweep true src s).bdy (P.sweep true src s').bdy ∧
      ∀ c < P.N, (P.sweep true src s').phi c = (P.sweep true src s).phi c := by
  obtain ⟨rank, hr⟩ := sweep_rank h hp
  obtain ⟨p1, c1, f1⟩ := h.solves true src s
  obtain ⟨p2, c2, f2⟩ := h.solves true src s'
  have key : ∀ n, ∀ o < 2 ^ P.dim, ∀ a < P.na, rank o a = n →
      (∀ side < 2 * P.dim, ∀ i j, InFace P side i j → P.get ((P.sweep true src s').bdy side o a) i j =
        P.get ((P.sweep true src s).bdy side o a) i j + P.get (pt side o a) i j) ∧ ∀ c < P.N, p2 o a c = p1 o a c := by
    intro n
    induction n using Nat.strong_induction_on with
    | _ n ih =>
      intro o ho a ha hn
      have hin : ∀ side < 2 * P.dim, Enters side o → ∀ i j, InFace P side i j →
          P.get ((P.sweep true src s').bdy side o a) i j =
            P.get ((P.sweep true src s).bdy side o a) i j + P.get (pt side o a) i j := by
        intro side hsd he i j hi
        by_cases hb : P.bc side = .reflect
        · obtain ⟨o', ho', hm⟩ : ∃ o' < 2 ^ P.dim, Mirror P.dim side o o' := by
            obtain ⟨g1, g2, _⟩ := mir_facts P.dim h.d1 h.d3 side hsd o ho
            exact ⟨_, g1, g2⟩
          have e1 := hr src s o o' a ho ha side hsd he hb hm
          have e2 := hr src s' o o' a ho ha side hsd he hb hm
          rw [← hpt.mirror side hsd hb o ho he o' hm a ha i j hi]
          by_cases hlt : rank o' a < rank o a
          · rw [e1.2 hlt, e2.2 hlt]
            exact (ih _ (hn ▸ hlt) o' ho' a ha rfl).1 side hsd i j hi
          · rw [e1.1 hlt, e2.1 hlt]
            exact hs side hsd o' ho' a ha i j hi
        · rw [sweep_keep h hp true src s o a ho ha side hsd he hb, sweep_keep h hp true src s' o a ho ha side hsd he hb]
          exact hs side hsd o ho a ha i j hi
      obtain ⟨p, p0, hcell⟩ := hpt.cells o ho a ha
      have hsum : Sol (src o a) o a (fun f => P.comb 1 1 (P.sweep true src s).bdy pt f o a) (fun c => p1 o a c + p c) :=
        h.lin 1 1 (src o a) (fun _ => 0) (src o a) o a _ _ _ (p1 o a) p (fun c => p1 o a c + p c) ho (c1 o ho a ha)
          hcell (fun c _ => by ring) (fun c => by ring)
          (fun side hsd i j hi => get_comb h 1 1 _ _ side hsd o a i j hi)
      have gs : ∀ side < 2 * P.dim, ∀ i j, InFace P side i j → P.get (P.comb 1 1 (P.sweep true src s).bdy pt side o a) i j =
          P.get ((P.sweep true src s).bdy side o a) i j + P.get (pt side o a) i j := fun side hsd i j hi => by
        rw [get_comb h 1 1 _ _ side hsd o a i j hi, one_mul, one_mul]
      obtain ⟨d1, d2⟩ := h.det (src o a) o a _ _ _ _ ho (c2 o ho a ha) hsum (fun side hsd he i j hi => by
        rw [gs side hsd i j hi]; exact hin side hsd he i j hi)
      refine ⟨fun side hsd i j hi => ?_, fun c hc => by rw [d2 c hc, p0 c hc, add_zero]⟩
      by_cases he : Enters side o
      · exact hin side hsd he i j hi
      · rw [d1 side hsd he i j hi, gs side hsd i j hi]
  refine ⟨fun side hsd o ho a ha i j hi => (key _ o ho a ha rfl).1 side hsd i j hi, fun c hc => ?_⟩
  rw [f1 c hc, f2 c hc]
  refine sum_congr rfl fun o ho => sum_congr rfl fun a ha => ?_
  rw [(key _ o (mem_range.1 ho) a (mem_range.1 ha) rfl).2 c hc]

/-- What the boundary held before shows in what it holds after any number of passes of source iteration: started with
    the same fluxes and a silent pattern more, the passes find the same fluxes and keep the pattern unchanged. -/
theorem C149_kept (h : Sweeps P w Sol) (hp : ∀ s < 2 * P.dim, P.bc s ≠ .periodic) {pt : Bd F} (hpt : Silent P Sol pt)
    (s s' : St F K) (hs : Shifted P pt s.bdy s'.bdy) (hphi : ∀ c < P.N, s'.phi c = s.phi c) (n : Nat) :
    Shifted P pt (P.siPass^[n] s).bdy (P.siPass^[n] s').bdy ∧
      ∀ c < P.N, (P.siPass^[n] s').phi c = (P.siPass^[n] s).phi c := by
  induction n with
  | zero => exact ⟨hs, hphi⟩
  | succ n ih =>
    rw [Function.iterate_succ_apply', Function.iterate_succ_apply']
    have e : P.moments (P.siPass^[n] s').phi = P.moments (P.siPass^[n] s).phi := by
      funext c
      unfold Prob.moments
      split
      · next hc => exact ih.2 c hc
      · rfl
    unfold Prob.siPass at *
    rw [e]
    exact sweep_shifted h hp hpt _ _ _ ih.1

end kept

section main
variable {F K : Type} [Field K] [LinearOrder K] [IsStrictOrderedRing K]
variable {P : Prob F K} {w V sig ss : Nat → K} {m r : K} {fw : Nat → Nat → Nat → Nat → K}
  {Sol : (Nat → K) → Nat → Nat → (Nat → F) → (Nat → K) → Prop}

theorem solved_of (h : Sweeps P w Sol) (hS : Subcritical P w V sig ss m r) {phi : Nat → K} {bd : Bd F}
    {psi : Nat → Nat → Nat → K} (k : Solved P w Sol phi bd psi) : SolOf P w ss m Sol phi bd psi := by
  obtain ⟨k1, k2, k3, k4, k5⟩ := k
  refine ⟨fun o ho a ha => h.src_congr ho (fun c hc => ?_) (k1 o ho a ha), k2, k3, k4, k5⟩
  rw [hS.scat _ c hc, hS.mtod o ho a ha]
  unfold Prob.moments
  rw [if_pos hc]

/-- The difference of two solutions: without source, without flux in the cells and at sides that do not reflect, and
    with its own reflection at those that do. -/
theorem differ (h : Sweeps P w Sol) (hS : Subcritical P w V sig ss m r) (D : Dissipates P Sol V sig fw)
    {phi phi' : Nat → K} {b1 b2 : Bd F} {p1 p2 : Nat → Nat → Nat → K} (h1 : Solved P w Sol phi b1 p1)
    (h2 : Solved P w Sol phi' b2 p2) :
    AgreeCells P p1 p2 ∧
    (∀ o < 2 ^ P.dim, ∀ a < P.na, Sol (fun _ => 0) o a (fun f => errBd P b1 b2 f o a)
      (fun c => p1 o a c - p2 o a c)) ∧
    (∀ side < 2 * P.dim, P.bc side ≠ .reflect → AgreeSide P side b1 b2) ∧
    ∀ side < 2 * P.dim, P.bc side = .reflect → ∀ o < 2 ^ P.dim, Enters side o → ∀ o', Mirror P.dim side o o' →
      ∀ a < P.na, ∀ i j, InFace P side i j →
        P.get (errBd P b1 b2 side o a) i j = P.get (errBd P b1 b2 side o' a) i j := by
  have k1 := solved_of h hS h1
  have k2 := solved_of h hS h2
  have zin : ∀ side < 2 * P.dim, P.bc side ≠ .reflect → ∀ o < 2 ^ P.dim, Enters side o → ∀ a < P.na, ∀ i j,
      InFace P side i j → P.get (errBd P b1 b2 side o a) i j = 0 := by
    intro side hs hb o ho he a ha i j hi
    exact enter_error h hS ⟨k1.vacuum, k1.given⟩ k2 side hs hb o ho he a ha i j hi
  have zref : ∀ side < 2 * P.dim, P.bc side = .reflect → ∀ o < 2 ^ P.dim, Enters side o → ∀ o', Mirror P.dim side o o' →
      ∀ a < P.na, ∀ i j, InFace P side i j →
        P.get (errBd P b1 b2 side o a) i j = P.get (errBd P b1 b2 side o' a) i j := by
    intro side hs hb o ho he o' hm a ha i j hi
    rw [get_errBd h _ _ side hs _ _ _ _ hi, get_errBd h _ _ side hs _ _ _ _ hi]
    have e1 := k1.reflect side hs hb o ho he _ hm a ha i j hi
    have e2 := k2.reflect side hs hb o ho he _ hm a ha i j hi
    linarith
  have zsol : ∀ o < 2 ^ P.dim, ∀ a < P.na, Sol (fun c => ss c * (phi c - phi' c) * m) o a
      (fun f => errBd P b1 b2 f o a) (fun c => p1 o a c - p2 o a c) := fun o ho a ha =>
    h.lin 1 (-1) _ _ _ o a _ _ _ _ _ _ ho (k1.cells o ho a ha) (k2.cells o ho a ha) (fun c _ => by ring)
      (fun c => by ring) (fun side hs i j hi => get_comb h 1 (-1) _ _ side hs o a i j hi)
  obtain ⟨e0, _, z, zout⟩ := homogeneous hS D h (fun c => phi c - phi' c) (errBd P b1 b2)
    (fun o a c => p1 o a c - p2 o a c) zsol
    (fun c hc => by
      have e1 := k1.flux c hc
      have e2 := k2.flux c hc
      rw [add_zero] at e1 e2
      rw [e1, e2, ← sum_sub_distrib]
      refine sum_congr rfl fun o _ => ?_
      rw [← sum_sub_distrib]
      exact sum_congr rfl fun a _ => by ring)
    zin
    (fun side hs hb o ho he a ha i j hi => zref side hs hb o ho he _ (mir_facts P.dim h.d1 h.d3 side hs o ho).2.1 a ha i j hi)
  refine ⟨fun o ho a ha c hc => sub_eq_zero.1 (z o ho a ha c hc), fun o ho a ha =>
    h.src_congr ho (fun c hc => by rw [e0 c hc]; ring) (zsol o ho a ha), fun side hs hb o ho a ha i j hi => ?_, zref⟩
  have key : P.get (errBd P b1 b2 side o a) i j = 0 := by
    by_cases he : Enters side o
    · exact zin side hs hb o ho he a ha i j hi
    · obtain ⟨f1, _, f3, f4⟩ := mir_facts P.dim h.d1 h.d3 side hs o ho
      have := zout side hs hb _ f1 (f4.2 he) a ha i j hi
      rwa [f3] at this
  rw [get_errBd h _ _ side hs _ _ _ _ hi] at key
  exact sub_eq_zero.1 key

/-- The angular fluxes in the cells are determined, and so are all fluxes at sides that do not reflect, the leaving
    ones included; in any dimension, with any scheme whose cells make no energy. -/
theorem C149_open_sides (h : Sweeps P w Sol) (hS : Subcritical P w V sig ss m r) (D : Dissipates P Sol V sig fw)
    {phi phi' : Nat → K} {bd bd' : Bd F} {psi psi' : Nat → Nat → Nat → K} (h1 : Solved P w Sol phi bd psi)
    (h2 : Solved P w Sol phi' bd' psi') :
    AgreeCells P psi psi' ∧ ∀ side < 2 * P.dim, P.bc side ≠ .reflect → AgreeSide P side bd bd' :=
  ⟨(differ h hS D h1 h2).1, (differ h hS D h1 h2).2.2.1⟩

/-! ## Slabs -/

/-- In one dimension everything is determined, whatever the sides are. -/
theorem slab_sides (mu w dx sig ss fixed : Nat → K) (m r : K) (nx na : Nat) (up : Bool)
    (bc : Nat → BC K) (order : List Nat) (hord : order.Perm (List.range 2)) (sch : Nat → Nat → K → K → K × K)
    (lin : ∀ a i, LinEq1 (sch a i))
    (cell : ∀ a i, 0 < mu a → 0 < dx i → 0 < sig i → Cell1 (mu a / 2) (dx i) (sig i) (sch a i))
    (inj : ∀ a i, 0 < mu a → 0 < dx i → 0 < sig i → ∀ v, (sch a i 0 v).1 = 0 → v = 0 ∧ (sch a i 0 v).2 = 0)
    (hmu : ∀ a < na, 0 < mu a) (hw : ∀ a < na, 0 < w a) (hm : m * ∑ _o ∈ range 2, ∑ a ∈ range na, w a = 1)
    (hdx : ∀ i < nx, 0 < dx i) (hsig : ∀ i < nx, 0 < sig i) (hss : ∀ i < nx, |ss i| ≤ r * sig i) (h0 : 0 ≤ r)
    (h1 : r < 1) (hp : ∀ s < 2, bc s ≠ .periodic) (hn : 0 < nx) {phi phi' : Nat → K} {bd bd' : Bd K}
    {psi psi' : Nat → Nat → Nat → K}
    (k1 : Solved (prob1 sch w nx na up bc order (fun f c => ss c * f c) fixed (fun _ _ => m) []) w
      (fun q o a b p => Solves1 nx (fun i => sch a i (q i)) o b p) phi bd psi)
    (k2 : Solved (prob1 sch w nx na up bc order (fun f c => ss c * f c) fixed (fun _ _ => m) []) w
      (fun q o a b p => Solves1 nx (fun i => sch a i (q i)) o b p) phi' bd' psi') :
    ∀ side < 2, ∀ o < 2, ∀ a < na, bd side o a = bd' side o a := by
  have hsw := sweeps1 sch lin w nx na up bc order hord (fun f c => ss c * f c) fixed (fun _ _ => m) []
  obtain ⟨z, e, _⟩ := differ hsw (V := dx) (sig := sig) (ss := ss) (m := m) (r := r)
    ⟨hw, fun _ _ _ _ => rfl, hm, hdx, hsig, fun _ _ _ => rfl, hss, h0, h1, rfl, hp⟩
    (dissipates1 sch w nx na up bc order _ _ _ _ dx sig (fun a => mu a / 2) (fun a ha => half_pos (hmu a ha))
      fun a ha i hi => cell a i (hmu a ha) (hdx i hi) (hsig i hi)) k1 k2
  intro side hs o ho a ha
  obtain ⟨E, e1, e2, e3⟩ := e o ho a ha
  have zz : ∀ p < nx, E p = 0 ∧ E (p + 1) = 0 := by
    intro p hp'
    have hi := posn_lt (o := o) (d := 0) hp'
    have c : sch a (posn nx o 0 p) 0 (E p) = _ := e3 p hp'
    have c0 := z o ho a ha _ hi
    obtain ⟨i1, i2⟩ := inj a _ (hmu a ha) (hdx _ hi) (hsig _ hi) (E p) (by
      rw [c]; exact sub_eq_zero.2 c0)
    refine ⟨i1, ?_⟩
    rw [c] at i2
    exact i2
  have k0 : errBd (prob1 sch w nx na up bc order (fun f c => ss c * f c) fixed (fun _ _ => m) []) bd bd' (entry o 0) o a = (0 : K) := e1.symm.trans (zz 0 hn).1
  have kn : errBd (prob1 sch w nx na up bc order (fun f c => ss c * f c) fixed (fun _ _ => m) []) bd bd' (exit o 0) o a = (0 : K) := by
    refine e2.trans ?_
    have := (zz (nx - 1) (by omega)).2
    rwa [Nat.sub_add_cancel hn] at this
  have ks : errBd (prob1 sch w nx na up bc order (fun f c => ss c * f c) fixed (fun _ _ => m) []) bd bd' side o a = (0 : K) := by
    have : side = entry o 0 ∨ side = exit o 0 := by
      interval_cases side <;> interval_cases o <;> decide
    rcases this with rfl | rfl
    · exact k0
    · exact kn
  have g := get_errBd hsw bd bd' side hs o a 0 0 (by
    have : side = 0 ∨ side = 1 := by omega
    rcases this with rfl | rfl <;> exact ⟨Nat.one_pos, Nat.one_pos⟩)
  have g' : errBd (prob1 sch w nx na up bc order (fun f c => ss c * f c) fixed (fun _ _ => m) []) bd bd' side o a =
      bd side o a - bd' side o a := g
  rw [ks] at g'
  exact sub_eq_zero.1 g'.symm

theorem C149_1D (mu w dx sig ss fixed : Nat → K) (m r : K) (nx na : Nat) (up : Bool)
    (bc : Nat → BC K) (order : List Nat) (hord : order.Perm (List.range 2)) (sch : Nat → Nat → K → K → K × K)
    (hsch : ∀ a i, sch a i = dd1 (mu a) (dx i) (sig i) ∨ sch a i = sd1 (mu a) (dx i) (sig i))
    (hmu : ∀ a < na, 0 < mu a) (hw : ∀ a < na, 0 < w a) (hm : m * ∑ _o ∈ range 2, ∑ a ∈ range na, w a = 1)
    (hdx : ∀ i < nx, 0 < dx i) (hsig : ∀ i < nx, 0 < sig i) (hss : ∀ i < nx, |ss i| ≤ r * sig i) (h0 : 0 ≤ r)
    (h1 : r < 1) (hp : ∀ s < 2, bc s ≠ .periodic) (hn : 0 < nx) {phi phi' : Nat → K} {bd bd' : Bd K}
    {psi psi' : Nat → Nat → Nat → K}
    (k1 : Solved (prob1 sch w nx na up bc order (fun f c => ss c * f c) fixed (fun _ _ => m) []) w
      (fun q o a b p => Solves1 nx (fun i => sch a i (q i)) o b p) phi bd psi)
    (k2 : Solved (prob1 sch w nx na up bc order (fun f c => ss c * f c) fixed (fun _ _ => m) []) w
      (fun q o a b p => Solves1 nx (fun i => sch a i (q i)) o b p) phi' bd' psi') :
    ∀ side < 2, ∀ o < 2, ∀ a < na, bd side o a = bd' side o a := by
  refine slab_sides mu w dx sig ss fixed m r nx na up bc order hord sch (fun a i => ?_) (fun a i c1 c2 c3 => ?_)
    (fun a i c1 c2 c3 v hv => ?_) hmu hw hm hdx hsig hss h0 h1 hp hn k1 k2
  · obtain ⟨l1, l2, _⟩ := C27_schemes_linear (fun x : K => x) (mu a) 0 0 (dx i) 0 0 (sig i)
    rcases hsch a i with e | e <;> rw [e] <;> assumption
  · rcases hsch a i with e | e
    · rw [e]; exact cell_dd1 _ _ _ c1 c2 c3
    · rw [e]; exact cell_sd1 _ _ _ c1 c2 c3
  · rcases hsch a i with e | e
    · rw [e] at hv ⊢
      have d : 0 < 1 / (sig i + 2 * mu a / dx i) * (2 * mu a / dx i) := by positivity
      have hv' : 1 / (sig i + 2 * mu a / dx i) * (0 + 2 * mu a / dx i * v) = 0 := hv
      have v0 : v = 0 := by
        have : 1 / (sig i + 2 * mu a / dx i) * (2 * mu a / dx i) * v = 0 := by rw [← hv']; ring
        exact (mul_eq_zero.1 this).resolve_left d.ne'
      refine ⟨v0, ?_⟩
      change 2 * (1 / (sig i + 2 * mu a / dx i) * (0 + 2 * mu a / dx i * v)) - v = 0
      rw [hv', v0]; ring
    · rw [e] at hv ⊢
      have d : 0 < 1 / (sig i + mu a / dx i) * (mu a / dx i) := by positivity
      have hv' : 1 / (sig i + mu a / dx i) * (0 + mu a / dx i * v) = 0 := hv
      refine ⟨?_, hv'⟩
      have : 1 / (sig i + mu a / dx i) * (mu a / dx i) * v = 0 := by rw [← hv']; ring
      exact (mul_eq_zero.1 this).resolve_left d.ne'

/-- The same with step characteristics. -/
theorem C149_1D_sc (mu w dx sig ss fixed : Nat → ℝ) (m r : ℝ) (nx na : Nat) (up : Bool)
    (bc : Nat → BC ℝ) (order : List Nat) (hord : order.Perm (List.range 2))
    (hmu : ∀ a < na, 0 < mu a) (hw : ∀ a < na, 0 < w a) (hm : m * ∑ _o ∈ range 2, ∑ a ∈ range na, w a = 1)
    (hdx : ∀ i < nx, 0 < dx i) (hsig : ∀ i < nx, 0 < sig i) (hss : ∀ i < nx, |ss i| ≤ r * sig i) (h0 : 0 ≤ r)
    (h1 : r < 1) (hp : ∀ s < 2, bc s ≠ .periodic) (hn : 0 < nx) {phi phi' : Nat → ℝ} {bd bd' : Bd ℝ}
    {psi psi' : Nat → Nat → Nat → ℝ}
    (k1 : Solved (prob1 (fun a i => sc1 Real.exp (mu a) (dx i) (sig i)) w nx na up bc order (fun f c => ss c * f c) fixed
      (fun _ _ => m) []) w (fun q o a b p => Solves1 nx (fun i => sc1 Real.exp (mu a) (dx i) (sig i) (q i)) o b p) phi bd psi)
    (k2 : Solved (prob1 (fun a i => sc1 Real.exp (mu a) (dx i) (sig i)) w nx na up bc order (fun f c => ss c * f c) fixed
      (fun _ _ => m) []) w (fun q o a b p => Solves1 nx (fun i => sc1 Real.exp (mu a) (dx i) (sig i) (q i)) o b p) phi' bd' psi') :
    ∀ side < 2, ∀ o < 2, ∀ a < na, bd side o a = bd' side o a := by
  refine slab_sides mu w dx sig ss fixed m r nx na up bc order hord (fun a i => sc1 Real.exp (mu a) (dx i) (sig i))
    (fun a i => (C27_schemes_linear Real.exp (mu a) 0 0 (dx i) 0 0 (sig i)).2.2.1) (fun a i c1 c2 c3 => ?_)
    (fun a i c1 c2 c3 v hv => ?_) hmu hw hm hdx hsig hss h0 h1 hp hn k1 k2
  · obtain ⟨k1, k2⟩ := exp_ok (sig i * dx i / mu a) (by positivity)
    exact cell_sc1 Real.exp _ _ _ c1 c2 c3 k1 k2
  · have ht : 0 < sig i * dx i / mu a := by positivity
    have hA : Real.exp (-(sig i * dx i / mu a)) < 1 := by
      rw [← Real.exp_zero]; exact Real.exp_lt_exp.2 (by linarith)
    have hv' : v * (1 - Real.exp (-(sig i * dx i / mu a))) / (sig i * dx i / mu a) +
      0 * (sig i * dx i + mu a * (Real.exp (-(sig i * dx i / mu a)) - 1)) / (sig i * sig i * dx i) = 0 := hv
    rw [zero_mul, zero_div, add_zero, div_eq_zero_iff] at hv'
    have v0 : v = 0 := (mul_eq_zero.1 (hv'.resolve_right ht.ne')).resolve_right (by linarith)
    refine ⟨v0, ?_⟩
    change Real.exp (-(sig i * dx i / mu a)) * v + 0 * (1 - Real.exp (-(sig i * dx i / mu a))) / sig i = 0
    rw [v0]; ring

/-! ## Rectangles -/

/-- Data of a rectangle that scatters less than it collides. -/
structure Plane (mu eta w dx dy sig ss : Nat → K) (m r : K) (nx ny na : Nat) (bc : Nat → BC (Nat → K)) : Prop where
  hmu : ∀ a < na, 0 < mu a
  heta : ∀ a < na, 0 < eta a
  weight : ∀ a < na, 0 < w a
  norm : m * ∑ _o ∈ range 4, ∑ a ∈ range na, w a = 1
  hdx : ∀ i < nx, 0 < dx i
  hdy : ∀ j < ny, 0 < dy j
  hsig : ∀ c < nx * ny, 0 < sig c
  scat : ∀ c < nx * ny, |ss c| ≤ r * sig c
  nonneg : 0 ≤ r
  less : r < 1
  np : ∀ s < 4, bc s ≠ .periodic
  hx : 0 < nx
  hy : 0 < ny

/-- The group in a rectangle. -/
abbrev planeProb (sch : Nat → Nat → Nat → K → K × K → K × (K × K)) (w ss fixed : Nat → K) (m : K) (nx ny na : Nat)
    (up : Bool) (bc : Nat → BC (Nat → K)) (order : List Nat) : Prob (Nat → K) K :=
  prob2 sch w nx ny na up bc order (fun f c => ss c * f c) fixed (fun _ _ => m) []

/-- Its cell equations. -/
abbrev planeSol (sch : Nat → Nat → Nat → K → K × K → K × (K × K)) (nx ny : Nat) (q : Nat → K) (o a : Nat)
    (b : Nat → Nat → K) (p : Nat → K) : Prop := Solves2 nx ny (fun i j => sch a i j (q (i + j * nx))) o b p

theorem plane_differ {mu eta w dx dy sig ss : Nat → K} {m r : K} {nx ny na : Nat} {bc : Nat → BC (Nat → K)}
    (hP : Plane mu eta w dx dy sig ss m r nx ny na bc) (fixed : Nat → K) (up : Bool) (order : List Nat)
    (hord : order.Perm (List.range 4)) (sch : Nat → Nat → Nat → K → K × K → K × (K × K))
    (lin : ∀ a i j, LinEq2 (sch a i j))
    (cell : ∀ a i j, 0 < mu a → 0 < eta a → 0 < dx i → 0 < dy j → 0 < sig (i + j * nx) →
      Cell2 (mu a / 2 * dy j) (eta a / 2 * dx i) (dx i * dy j) (sig (i + j * nx)) (sch a i j))
    {phi phi' : Nat → K} {bd bd' : Bd (Nat → K)} {psi psi' : Nat → Nat → Nat → K}
    (k1 : Solved (planeProb sch w ss fixed m nx ny na up bc order) w (planeSol sch nx ny) phi bd psi)
    (k2 : Solved (planeProb sch w ss fixed m nx ny na up bc order) w (planeSol sch nx ny) phi' bd' psi') :
    (∀ o < 4, ∀ a < na, Solves2 nx ny (fun i j => sch a i j 0) o (fun f k => bd f o a k - bd' f o a k)
      (fun _ => 0)) ∧
    (∀ side < 4, bc side ≠ .reflect → ∀ o < 4, ∀ a < na, ∀ k < (if side < 2 then ny else nx),
      bd side o a k - bd' side o a k = 0) ∧
    ∀ side < 4, bc side = .reflect → ∀ o < 4, Enters side o → ∀ o', Mirror 2 side o o' → ∀ a < na,
      ∀ k < (if side < 2 then ny else nx), bd side o a k - bd' side o a k = bd side o' a k - bd' side o' a k := by
  have vol : ∀ i j, i < nx → dx ((i + j * nx) % nx) * dy ((i + j * nx) / nx) = dx i * dy j := fun i j hi => by
    rw [Nat.add_mul_mod_self_right, Nat.mod_eq_of_lt hi, Nat.add_mul_div_right _ _ (by omega : 0 < nx),
      Nat.div_eq_of_lt hi, Nat.zero_add]
  have hsw := sweeps2 sch lin w nx ny na up bc order hord (fun f c => ss c * f c) fixed (fun _ _ => m) []
  obtain ⟨z, e, op, re⟩ := differ hsw (V := fun c => dx (c % nx) * dy (c / nx)) (sig := sig) (ss := ss) (m := m) (r := r)
    ⟨hP.weight, fun _ _ _ _ => rfl, hP.norm, fun c hc => mul_pos (hP.hdx _ (Nat.mod_lt _ hP.hx))
      (hP.hdy _ (Nat.div_lt_of_lt_mul hc)), hP.hsig, fun _ _ _ => rfl, hP.scat, hP.nonneg, hP.less, rfl, hP.np⟩
    (dissipates2 sch w nx ny na up bc order _ _ _ _ _ sig (fun a j => mu a / 2 * dy j) (fun a i => eta a / 2 * dx i)
      (fun a ha j hj => mul_pos (half_pos (hP.hmu a ha)) (hP.hdy j hj))
      (fun a ha i hi => mul_pos (half_pos (hP.heta a ha)) (hP.hdx i hi)) fun a ha i hi j hj => by
        rw [vol i j hi]
        exact cell a i j (hP.hmu a ha) (hP.heta a ha) (hP.hdx i hi) (hP.hdy j hj) (hP.hsig _ (cell2_lt hi hj))) k1 k2
  have get : ∀ side < 4, ∀ o a, ∀ k < (if side < 2 then ny else nx),
      errBd (planeProb sch w ss fixed m nx ny na up bc order) bd bd' side o a k = bd side o a k - bd' side o a k :=
    fun side hs o a k hk => get_errBd hsw bd bd' side hs o a k 0 ((face2 nx ny side k 0 hs).2 ⟨hk, rfl⟩)
  refine ⟨fun o ho a ha => ?_, fun side hs hb o ho a ha k hk => ?_, fun side hs hb o ho he o' hm a ha k hk => ?_⟩
  · obtain ⟨E, G, e1, e2, e3⟩ := e o ho a ha
    obtain ⟨x1, x2, _, _, x5, x6⟩ := entry_facts 2 (by omega) (by omega) o ho 0 (by omega)
    obtain ⟨y1, y2, _, _, y5, y6⟩ := entry_facts 2 (by omega) (by omega) o ho 1 (by omega)
    refine ⟨E, G, fun q hq => ?_, fun p hp => ?_, fun p hp q hq => ?_⟩
    · have hk := posn_lt (o := o) (d := 1) hq
      obtain ⟨f1, f2⟩ := e1 q hq
      exact ⟨f1.trans (get _ x1 o a _ (by rw [if_pos (by omega)]; exact hk)),
        (get _ x2 o a _ (by rw [if_pos (by omega)]; exact hk)).symm.trans f2⟩
    · have hk := posn_lt (o := o) (d := 0) hp
      obtain ⟨f1, f2⟩ := e2 p hp
      exact ⟨f1.trans (get _ y1 o a _ (by rw [if_neg (by omega)]; exact hk)),
        (get _ y2 o a _ (by rw [if_neg (by omega)]; exact hk)).symm.trans f2⟩
    · have hc := cell2_lt (posn_lt (o := o) (d := 0) hp) (posn_lt (o := o) (d := 1) hq)
      have c := e3 p hp q hq
      have c0 := z o ho a ha _ hc
      dsimp only at c ⊢
      rw [c, c0, sub_self]
  · exact sub_eq_zero.2 (op side hs hb o ho a ha k 0 ((face2 nx ny side k 0 hs).2 ⟨hk, rfl⟩))
  · rw [← get side hs o a k hk, ← get side hs o' a k hk]
    exact re side hs hb o ho he o' hm a ha k 0 ((face2 nx ny side k 0 hs).2 ⟨hk, rfl⟩)

/-- Step differencing on a rectangle leaves nothing open at the sides. -/
theorem C149_2D_step {mu eta w dx dy sig ss : Nat → K} {m r : K} {nx ny na : Nat} {bc : Nat → BC (Nat → K)}
    (hP : Plane mu eta w dx dy sig ss m r nx ny na bc) (fixed : Nat → K) (up : Bool) (order : List Nat)
    (hord : order.Perm (List.range 4)) (sch : Nat → Nat → Nat → K → K × K → K × (K × K))
    (hsch : ∀ a i j, sch a i j = sd2 (mu a) (eta a) (dx i) (dy j) (sig (i + j * nx)))
    {phi phi' : Nat → K} {bd bd' : Bd (Nat → K)} {psi psi' : Nat → Nat → Nat → K}
    (k1 : Solved (planeProb sch w ss fixed m nx ny na up bc order) w (planeSol sch nx ny) phi bd psi)
    (k2 : Solved (planeProb sch w ss fixed m nx ny na up bc order) w (planeSol sch nx ny) phi' bd' psi') :
    ∀ side < 4, ∀ o < 4, ∀ a < na, ∀ k < (if side < 2 then ny else nx), bd side o a k = bd' side o a k := by
  obtain ⟨e, op, re⟩ := plane_differ hP fixed up order hord sch (fun a i j => by
      rw [hsch]; exact (C27_schemes_linear (fun x : K => x) (mu a) (eta a) 0 (dx i) (dy j) 0 _).2.2.2.2.1)
    (fun a i j c1 c2 c3 c4 c5 => by rw [hsch]; exact cell_sd2 _ _ _ _ _ c1 c2 c3 c4 c5) k1 k2
  have out : ∀ side < 4, ∀ o < 4, ¬ Enters side o → ∀ a < na, ∀ k < (if side < 2 then ny else nx),
      bd side o a k - bd' side o a k = 0 := by
    intro side hs o ho he a ha k hk
    obtain ⟨E, G, e1, e2, e3⟩ := e o ho a ha
    obtain ⟨l1, l2⟩ := leaves_exit 2 (by omega) (by omega) side o hs ho he
    have z : ∀ p < nx, ∀ q < ny, E (p + 1) q = 0 ∧ G p (q + 1) = 0 := by
      intro p hp q hq
      have c := e3 p hp q hq
      dsimp only at c
      rw [hsch] at c
      have c1 := congrArg Prod.fst c
      have c2 := congrArg (fun x => x.2.1) c
      have c3 := congrArg (fun x => x.2.2) c
      simp only [sd2] at c1 c2 c3
      exact ⟨c2.symm.trans c1, c3.symm.trans c1⟩
    have hd : side / 2 = 0 ∨ side / 2 = 1 := by omega
    rcases hd with hd | hd
    · rw [if_pos (by omega)] at hk
      rw [hd] at l2
      have := (e1 (posn ny o 1 k) (posn_lt hk)).2
      rw [posn_posn hk, ← l2] at this
      dsimp only at this
      rw [this]
      have hx := hP.hx
      have := (z (nx - 1) (by omega) _ (posn_lt (o := o) (d := 1) hk)).1
      rwa [Nat.sub_add_cancel hx] at this
    · rw [if_neg (by omega)] at hk
      rw [hd] at l2
      have := (e2 (posn nx o 0 k) (posn_lt hk)).2
      rw [posn_posn hk, ← l2] at this
      dsimp only at this
      rw [this]
      have hy := hP.hy
      have := (z _ (posn_lt (o := o) (d := 0) hk) (ny - 1) (by omega)).2
      rwa [Nat.sub_add_cancel hy] at this
  intro side hs o ho a ha k hk
  refine sub_eq_zero.1 ?_
  by_cases he : Enters side o
  · by_cases hb : bc side = .reflect
    · obtain ⟨f1, f2, _, f4⟩ := mir_facts 2 (by omega) (by omega) side hs o ho
      rw [re side hs hb o ho he _ f2 a ha k hk]
      exact out side hs _ f1 (fun h => f4.1 h he) a ha k hk
    · exact op side hs hb o ho a ha k hk
  · exact out side hs o ho he a ha k hk

/-- A mean of two fluxes, both attenuated, is below any bound on the two. -/
theorem mix_fade {t e o v h M : K} (ht : 0 < t) (ht1 : t ≤ 1) (he0 : 0 ≤ e) (he : e < 1) (ho0 : 0 ≤ o) (ho : o < 1) (hM : 0 < M)
    (hv : |v| ≤ M) (hh : |h| ≤ M) : |v * (1 - t) * e + h * t * o| < M := by
  have k1 : |v * (1 - t) * e| ≤ M * ((1 - t) * e) := by
    rw [mul_assoc, abs_mul, abs_of_nonneg (mul_nonneg (sub_nonneg.2 ht1) he0)]
    exact mul_le_mul_of_nonneg_right hv (mul_nonneg (sub_nonneg.2 ht1) he0)
  have k2 : |h * t * o| ≤ M * (t * o) := by
    rw [mul_assoc, abs_mul, abs_of_nonneg (mul_nonneg ht.le ho0)]
    exact mul_le_mul_of_nonneg_right hh (mul_nonneg ht.le ho0)
  have k3 : (1 - t) * e + t * o < 1 := by
    have l1 : (1 - t) * e ≤ 1 - t := mul_le_of_le_one_right (sub_nonneg.2 ht1) he.le
    have l2 : t * o < t := mul_lt_of_lt_one_right ht ho
    linarith
  calc |v * (1 - t) * e + h * t * o| ≤ |v * (1 - t) * e| + |h * t * o| := abs_add_le _ _
    _ ≤ M * ((1 - t) * e + t * o) := by rw [mul_add]; exact add_le_add k1 k2
    _ < M := by
      have := mul_lt_mul_of_pos_left k3 hM
      rwa [mul_one] at this

/-- Without a source, step characteristics let less out of a cell than the larger of what enters. -/
theorem sc2_fade {ex : K → K} (hex : Attenuates ex) {mu eta dx dy sig : K} (hmu : 0 < mu) (heta : 0 < eta) (hdx : 0 < dx)
    (hdy : 0 < dy) (hs : 0 < sig) {v h M : K} (hM : 0 < M) (hv : |v| ≤ M) (hh : |h| ≤ M) :
    |(sc2 ex mu eta dx dy sig 0 (v, h)).2.1| < M ∧ |(sc2 ex mu eta dx dy sig 0 (v, h)).2.2| < M := by
  have ha : 0 < sig * (dx / mu) := by positivity
  have hb : 0 < sig * (dy / eta) := by positivity
  have key : ∀ t : K, 0 < t → (0 ≤ ex (-t) ∧ ex (-t) < 1) ∧ 0 ≤ (1 - ex (-t)) / t ∧ (1 - ex (-t)) / t < 1 := fun t ht =>
    ⟨⟨hex.nonneg t ht, hex.less t ht⟩, div_nonneg (sub_nonneg.2 (hex.less t ht).le) ht.le, by
      rw [div_lt_one ht]; have := hex.lower t ht; linarith⟩
  have one : ∀ o v : K, 0 ≤ o → o < 1 → |v| ≤ M → |v * o| < M := fun o v h0 h1 hv => by
    rw [abs_mul, abs_of_nonneg h0]
    exact (mul_le_mul_of_nonneg_right hv h0).trans_lt (mul_lt_of_lt_one_right hM h1)
  unfold sc2
  dsimp only
  rw [zero_div]
  simp only [sub_zero, zero_add]
  generalize sig * (dx / mu) = al at ha
  generalize sig * (dy / eta) = be at hb
  split
  · next hr =>
    obtain ⟨⟨e0, e1⟩, o0, o1⟩ := key al ha
    exact ⟨mix_fade (div_pos ha hb) hr e0 e1 o0 o1 hM hv hh, one _ v o0 o1 hv⟩
  · next hr =>
    obtain ⟨⟨e0, e1⟩, o0, o1⟩ := key be hb
    have hr : 1 < al / be := not_le.1 hr
    refine ⟨one _ h o0 o1 hh, ?_⟩
    have := mix_fade (t := 1 / (al / be)) (by positivity) ((div_le_one (by linarith)).2 hr.le) e0 e1 o0 o1 hM hh hv
    rw [show v * ((1 - ex (-be)) / be) / (al / be) + h * (1 - 1 / (al / be)) * ex (-be) =
      h * (1 - 1 / (al / be)) * ex (-be) + v * (1 / (al / be)) * ((1 - ex (-be)) / be) by ring]
    exact this

/-- A direction that lets less out of every cell than enters lets less out of the rectangle. -/
theorem fade_through {nx ny : Nat} {E G : Nat → Nat → K} {M : K} (hE : ∀ q < ny, |E 0 q| ≤ M) (hG : ∀ p < nx, |G p 0| ≤ M)
    (hc : ∀ p < nx, ∀ q < ny, |E p q| ≤ M → |G p q| ≤ M → |E (p + 1) q| < M ∧ |G p (q + 1)| < M) :
    ∀ p < nx, ∀ q < ny, |E (p + 1) q| < M ∧ |G p (q + 1)| < M := by
  have key : ∀ n, ∀ p < nx, ∀ q < ny, p + q = n → |E (p + 1) q| < M ∧ |G p (q + 1)| < M := by
    intro n
    induction n with
    | zero =>
      intro p hp q hq hn
      obtain rfl : p = 0 := by omega
      obtain rfl : q = 0 := by omega
      exact hc 0 hp 0 hq (hE 0 hq) (hG 0 hp)
    | succ n ih =>
      intro p hp q hq hn
      refine hc p hp q hq ?_ ?_
      · rcases Nat.eq_zero_or_pos p with rfl | hp0
        · exact hE q hq
        · obtain ⟨p', rfl⟩ : ∃ p', p = p' + 1 := ⟨p - 1, by omega⟩
          exact (ih p' (by omega) q hq (by omega)).1.le
      · rcases Nat.eq_zero_or_pos q with rfl | hq0
        · exact hG p hp
        · obtain ⟨q', rfl⟩ : ∃ q', q = q' + 1 := ⟨q - 1, by omega⟩
          exact (ih p hp q' (by omega) (by omega)).2.le
  exact fun p hp q hq => key _ p hp q hq rfl

/-- Step characteristics on a rectangle leave nothing open at the sides either. -/
theorem C149_2D_sc {mu eta w dx dy sig ss : Nat → ℝ} {m r : ℝ} {nx ny na : Nat} {bc : Nat → BC (Nat → ℝ)}
    (hP : Plane mu eta w dx dy sig ss m r nx ny na bc) (fixed : Nat → ℝ) (up : Bool) (order : List Nat)
    (hord : order.Perm (List.range 4)) (sch : Nat → Nat → Nat → ℝ → ℝ × ℝ → ℝ × (ℝ × ℝ))
    (hsch : ∀ a i j, sch a i j = sc2 Real.exp (mu a) (eta a) (dx i) (dy j) (sig (i + j * nx)))
    {phi phi' : Nat → ℝ} {bd bd' : Bd (Nat → ℝ)} {psi psi' : Nat → Nat → Nat → ℝ}
    (k1 : Solved (planeProb sch w ss fixed m nx ny na up bc order) w (planeSol sch nx ny) phi bd psi)
    (k2 : Solved (planeProb sch w ss fixed m nx ny na up bc order) w (planeSol sch nx ny) phi' bd' psi') :
    ∀ side < 4, ∀ o < 4, ∀ a < na, ∀ k < (if side < 2 then ny else nx), bd side o a k = bd' side o a k := by
  obtain ⟨e, op, re⟩ := plane_differ hP fixed up order hord sch (fun a i j => by
      rw [hsch]; exact (C27_schemes_linear Real.exp (mu a) (eta a) 0 (dx i) (dy j) 0 _).2.2.2.2.2.1)
    (fun a i j c1 c2 c3 c4 c5 => by rw [hsch]; exact cell_sc2 _ _ _ _ _ c1 c2 c3 c4 c5) k1 k2
  let S : Finset (Nat × Nat × Nat × Nat) := (range 4 ×ˢ range 4 ×ˢ range na ×ˢ range (max nx ny)).filter fun x =>
    x.2.2.2 < (if x.1 < 2 then ny else nx)
  have memS : ∀ side < 4, ∀ o < 4, ∀ a < na, ∀ k < (if side < 2 then ny else nx), (side, o, a, k) ∈ S := by
    intro side hs o ho a ha k hk
    refine mem_filter.2 ⟨?_, hk⟩
    simp only [mem_product, mem_range]
    refine ⟨hs, ho, ha, ?_⟩
    split at hk
    · exact lt_max_of_lt_right hk
    · exact lt_max_of_lt_left hk
  by_contra hne
  push Not at hne
  obtain ⟨s0, hs0, o0, ho0, a0, ha0, k0, hk0, ne⟩ := hne
  obtain ⟨⟨side, o, a, k⟩, hx, hmax⟩ := S.exists_max_image (fun x => |bd x.1 x.2.1 x.2.2.1 x.2.2.2 - bd' x.1 x.2.1 x.2.2.1 x.2.2.2|)
    ⟨_, memS s0 hs0 o0 ho0 a0 ha0 k0 hk0⟩
  have bound : ∀ side' < 4, ∀ o' < 4, ∀ a' < na, ∀ k' < (if side' < 2 then ny else nx),
      |bd side' o' a' k' - bd' side' o' a' k'| ≤ |bd side o a k - bd' side o a k| :=
    fun side' h1 o' h2 a' h3 k' h4 => hmax _ (memS side' h1 o' h2 a' h3 k' h4)
  have hM : 0 < |bd side o a k - bd' side o a k| :=
    (abs_pos.2 (sub_ne_zero.2 ne)).trans_le (bound s0 hs0 o0 ho0 a0 ha0 k0 hk0)
  obtain ⟨hx1, hk⟩ := mem_filter.1 hx
  simp only [mem_product, mem_range] at hx1
  obtain ⟨hs, ho, ha, _⟩ := hx1
  dsimp only at hk
  generalize hMe : |bd side o a k - bd' side o a k| = M at hmax bound hM
  have out : ∀ side < 4, ∀ o < 4, ¬ Enters side o → ∀ a < na, ∀ k < (if side < 2 then ny else nx),
      |bd side o a k - bd' side o a k| < M := by
    intro side hs o ho he a ha k hk
    obtain ⟨E, G, e1, e2, e3⟩ := e o ho a ha
    obtain ⟨l1, l2⟩ := leaves_exit 2 (by omega) (by omega) side o hs ho he
    obtain ⟨x1, x2, _, _, x5, x6⟩ := entry_facts 2 (by omega) (by omega) o ho 0 (by omega)
    obtain ⟨y1, y2, _, _, y5, y6⟩ := entry_facts 2 (by omega) (by omega) o ho 1 (by omega)
    have z := fade_through (nx := nx) (ny := ny) (E := E) (G := G) (M := M) (fun q hq => by
        rw [(e1 q hq).1]
        exact bound _ x1 o ho a ha _ (by rw [if_pos (by omega)]; exact posn_lt hq))
      (fun p hp => by
        rw [(e2 p hp).1]
        exact bound _ y1 o ho a ha _ (by rw [if_neg (by omega)]; exact posn_lt hp))
      (fun p hp q hq b1 b2 => by
        have hp' := posn_lt (o := o) (d := 0) hp
        have hq' := posn_lt (o := o) (d := 1) hq
        have c := e3 p hp q hq
        dsimp only at c
        rw [hsch] at c
        have f := sc2_fade attenuates_exp (hP.hmu a ha) (hP.heta a ha) (hP.hdx _ hp') (hP.hdy _ hq')
          (hP.hsig _ (cell2_lt hp' hq')) hM b1 b2
        rw [c] at f
        exact f)
    have hd : side / 2 = 0 ∨ side / 2 = 1 := by omega
    rcases hd with hd | hd
    · rw [if_pos (by omega)] at hk
      rw [hd] at l2
      have := (e1 (posn ny o 1 k) (posn_lt hk)).2
      rw [posn_posn hk, ← l2] at this
      dsimp only at this
      rw [this]
      have hx := hP.hx
      have := (z (nx - 1) (by omega) _ (posn_lt (o := o) (d := 1) hk)).1
      rwa [Nat.sub_add_cancel hx] at this
    · rw [if_neg (by omega)] at hk
      rw [hd] at l2
      have := (e2 (posn nx o 0 k) (posn_lt hk)).2
      rw [posn_posn hk, ← l2] at this
      dsimp only at this
      rw [this]
      have hy := hP.hy
      have := (z _ (posn_lt (o := o) (d := 0) hk) (ny - 1) (by omega)).2
      rwa [Nat.sub_add_cancel hy] at this
  refine absurd hMe (ne_of_lt ?_)
  by_cases he : Enters side o
  · by_cases hb : bc side = .reflect
    · obtain ⟨f1, f2, _, f4⟩ := mir_facts 2 (by omega) (by omega) side hs o ho
      rw [re side hs hb o ho he _ f2 a ha k hk]
      exact out side hs _ f1 (fun h => f4.1 h he) a ha k hk
    · rw [op side hs hb o ho a ha k hk, abs_zero]
      exact hM
  · exact out side hs o ho he a ha k hk

/-! ### Diamond differencing -/

/-- A cell without source and flux turns the sign of what crosses it, and balances its two directions. -/
theorem dd2_empty {mu eta dx dy sig v h v' h' : K} (hmu : 0 < mu) (heta : 0 < eta) (hdx : 0 < dx) (hdy : 0 < dy)
    (hs : 0 < sig) (e : dd2 mu eta dx dy sig 0 (v, h) = (0, (v', h'))) :
    mu / dx * v + eta / dy * h = 0 ∧ v' = -v ∧ h' = -h := by
  have c1 := congrArg Prod.fst e
  have c2 := congrArg (fun x => x.2.1) e
  have c3 := congrArg (fun x => x.2.2) e
  simp only [dd2] at c1 c2 c3
  rw [c1] at c2 c3
  refine ⟨?_, by rw [← c2]; ring, by rw [← c3]; ring⟩
  have d : 0 < 1 / (sig + 2 * mu / dx + 2 * eta / dy) := by positivity
  have := (mul_eq_zero.1 c1).resolve_left d.ne'
  have h2 : 2 * (mu / dx * v + eta / dy * h) = 0 := by rw [← this]; ring
  linarith

/-- Fluxes that do so in all cells are one number times a pattern. -/
theorem grid {nx ny : Nat} (hx : 0 < nx) (hy : 0 < ny) {x y : Nat → K} (hxp : ∀ p < nx, 0 < x p) (hyp : ∀ q < ny, 0 < y q)
    {E G : Nat → Nat → K} (h : ∀ p < nx, ∀ q < ny, x p * E p q + y q * G p q = 0 ∧ E (p + 1) q = -E p q ∧
      G p (q + 1) = -G p q) :
    ∃ A, (∀ p ≤ nx, ∀ q < ny, E p q = A * (-1) ^ (p + q) * y q) ∧
      ∀ p < nx, ∀ q ≤ ny, G p q = -(A * (-1) ^ (p + q) * x p) := by
  have hE : ∀ p ≤ nx, ∀ q < ny, E p q = (-1) ^ p * E 0 q := by
    intro p
    induction p with
    | zero => intro _ q _; ring
    | succ p ih => intro hp q hq; rw [(h p (by omega) q hq).2.1, ih (by omega) q hq]; ring
  have hG : ∀ q ≤ ny, ∀ p < nx, G p q = (-1) ^ q * G p 0 := by
    intro q
    induction q with
    | zero => intro _ p _; ring
    | succ q ih => intro hq p hp; rw [(h p hp q (by omega)).2.2, ih (by omega) p hp]; ring
  have y0 := (hyp 0 hy).ne'
  have x0 := (hxp 0 hx).ne'
  have sq : ∀ n : Nat, ((-1 : K) ^ n) * (-1) ^ n = 1 := fun n => by
    rw [← mul_pow]; norm_num
  have g0 : ∀ p < nx, G p 0 = -(E 0 0 / y 0 * (-1) ^ p * x p) := by
    intro p hp
    have := (h p hp 0 hy).1
    rw [hE p hp.le 0 hy] at this
    field_simp
    linear_combination this
  have e0 : ∀ q < ny, E 0 q = E 0 0 / y 0 * (-1) ^ q * y q := by
    intro q hq
    have := (h 0 hx q hq).1
    rw [hG q hq.le 0 hx, g0 0 hx, pow_zero] at this
    have h2 : x 0 * E 0 q = x 0 * (E 0 0 / y 0 * (-1) ^ q * y q) := by linear_combination this
    exact mul_left_cancel₀ x0 h2
  refine ⟨E 0 0 / y 0, fun p hp q hq => ?_, fun p hp q hq => ?_⟩
  · rw [hE p hp q hq, e0 q hq, pow_add]; ring
  · rw [hG q hq p hp, g0 p hp, pow_add]; ring

theorem flip_sign (n k : Nat) (hk : k < n) : (-1 : K) ^ (n - 1 - k) = -((-1) ^ n * (-1) ^ k) := by
  obtain ⟨t, rfl⟩ : ∃ t, n = t + 1 + k := ⟨n - 1 - k, by omega⟩
  have sq : ((-1 : K) ^ k) * (-1) ^ k = 1 := by rw [← mul_pow]; norm_num
  have e : t + 1 + k - 1 - k = t := by omega
  rw [e, pow_add, pow_add, pow_one]
  linear_combination (-(-1 : K) ^ t) * sq

/-- What one direction can have at the sides without flux in the cells. -/
theorem direction {mu eta : K} {dx dy : Nat → K} {sig : Nat → K} {nx ny : Nat} (hx : 0 < nx) (hy : 0 < ny) (hmu : 0 < mu)
    (heta : 0 < eta) (hdx : ∀ i < nx, 0 < dx i) (hdy : ∀ j < ny, 0 < dy j) (hsig : ∀ c < nx * ny, 0 < sig c) {o : Nat}
    (ho : o < 4) {b : Nat → Nat → K}
    (hb : Solves2 nx ny (fun i j => dd2 mu eta (dx i) (dy j) (sig (i + j * nx)) 0) o b (fun _ => 0)) :
    ∃ A, ∀ side < 4, ∀ k < (if side < 2 then ny else nx), b side k = A * alternating mu eta dx dy nx ny side o k := by
  obtain ⟨E, G, e1, e2, e3⟩ := hb
  obtain ⟨A, a1, a2⟩ := grid hx hy (x := fun p => mu / dx (posn nx o 0 p)) (y := fun q => eta / dy (posn ny o 1 q))
    (fun p hp => div_pos hmu (hdx _ (posn_lt hp))) (fun q hq => div_pos heta (hdy _ (posn_lt hq))) (E := E) (G := G)
    (fun p hp q hq => dd2_empty hmu heta (hdx _ (posn_lt hp)) (hdy _ (posn_lt hq))
      (hsig _ (cell2_lt (posn_lt hp) (posn_lt hq))) (e3 p hp q hq))
  have vin : ∀ j < ny, b (entry o 0) j = A * (-1) ^ posn ny o 1 j * (eta / dy j) := fun j hj => by
    have := (e1 _ (posn_lt (o := o) (d := 1) hj)).1
    rw [posn_posn hj, a1 0 (by omega) _ (posn_lt hj), posn_posn hj, Nat.zero_add] at this
    exact this.symm
  have vout : ∀ j < ny, b (exit o 0) j = A * (-1) ^ (nx + posn ny o 1 j) * (eta / dy j) := fun j hj => by
    have := (e1 _ (posn_lt (o := o) (d := 1) hj)).2
    rw [posn_posn hj, a1 nx (le_refl _) _ (posn_lt hj), posn_posn hj] at this
    exact this
  have hin : ∀ i < nx, b (entry o 1) i = -(A * (-1) ^ posn nx o 0 i * (mu / dx i)) := fun i hi => by
    have := (e2 _ (posn_lt (o := o) (d := 0) hi)).1
    rw [posn_posn hi, a2 _ (posn_lt hi) 0 (by omega), posn_posn hi, Nat.add_zero] at this
    exact this.symm
  have hout : ∀ i < nx, b (exit o 1) i = -(A * (-1) ^ (posn nx o 0 i + ny) * (mu / dx i)) := fun i hi => by
    have := (e2 _ (posn_lt (o := o) (d := 0) hi)).2
    rw [posn_posn hi, a2 _ (posn_lt hi) ny (le_refl _), posn_posn hi] at this
    exact this
  have sq : ∀ n : Nat, ((-1 : K) ^ n) * (-1) ^ n = 1 := fun n => by rw [← mul_pow]; norm_num
  have sx := sq nx
  have sy := sq ny
  interval_cases o
  · refine ⟨A, fun side hs k hk => ?_⟩
    interval_cases side <;> simp only [alternating, octantSign] <;> norm_num at hk ⊢
    · rw [show b 0 k = _ from vin k hk]; simp [posn, octantSign]; ring
    · rw [show b 1 k = _ from vout k hk]; simp [posn, octantSign]; ring
    · rw [show b 2 k = _ from hin k hk]; simp [posn, octantSign]; ring
    · rw [show b 3 k = _ from hout k hk]; simp [posn, octantSign, pow_add]; ring
  · refine ⟨A * (-1) ^ nx, fun side hs k hk => ?_⟩
    interval_cases side <;> simp only [alternating, octantSign] <;> norm_num at hk ⊢
    · rw [show b 0 k = _ from vout k hk]; simp [posn, octantSign, pow_add]; ring
    · rw [show b 1 k = _ from vin k hk]; simp [posn, octantSign, pow_add]
      linear_combination (-(A * (-1) ^ k * (eta / dy k))) * sx
    · rw [show b 2 k = _ from hin k hk]; simp [posn, octantSign, flip_sign nx k hk]; ring
    · rw [show b 3 k = _ from hout k hk]; simp [posn, octantSign, pow_add, flip_sign nx k hk]; ring
  · refine ⟨A * (-1) ^ nx * (-1) ^ ny, fun side hs k hk => ?_⟩
    interval_cases side <;> simp only [alternating, octantSign] <;> norm_num at hk ⊢
    · rw [show b 0 k = _ from vout k hk]; simp [posn, octantSign, pow_add, flip_sign ny k hk]; ring
    · rw [show b 1 k = _ from vin k hk]; simp [posn, octantSign, pow_add, flip_sign ny k hk]
      linear_combination (-(A * (-1) ^ ny * (-1) ^ k * (eta / dy k))) * sx
    · rw [show b 2 k = _ from hout k hk]; simp [posn, octantSign, pow_add, flip_sign nx k hk]; ring
    · rw [show b 3 k = _ from hin k hk]; simp [posn, octantSign, pow_add, flip_sign nx k hk]
      linear_combination (-(A * (-1) ^ nx * (-1) ^ k * (mu / dx k))) * sy
  · refine ⟨A * (-1) ^ ny, fun side hs k hk => ?_⟩
    interval_cases side <;> simp only [alternating, octantSign] <;> norm_num at hk ⊢
    · rw [show b 0 k = _ from vin k hk]; simp [posn, octantSign, flip_sign ny k hk]; ring
    · rw [show b 1 k = _ from vout k hk]; simp [posn, octantSign, pow_add, flip_sign ny k hk]; ring
    · rw [show b 2 k = _ from hout k hk]; simp [posn, octantSign, pow_add]; ring
    · rw [show b 3 k = _ from hin k hk]; simp [posn, octantSign, pow_add]
      linear_combination (-(A * (-1) ^ k * (mu / dx k))) * sy

theorem diamond_differ {mu eta w dx dy sig ss : Nat → K} {m r : K} {nx ny na : Nat} {bc : Nat → BC (Nat → K)}
    (hP : Plane mu eta w dx dy sig ss m r nx ny na bc) (fixed : Nat → K) (up : Bool) (order : List Nat)
    (hord : order.Perm (List.range 4)) (sch : Nat → Nat → Nat → K → K × K → K × (K × K))
    (hsch : ∀ a i j, sch a i j = dd2 (mu a) (eta a) (dx i) (dy j) (sig (i + j * nx)))
    {phi phi' : Nat → K} {bd bd' : Bd (Nat → K)} {psi psi' : Nat → Nat → Nat → K}
    (k1 : Solved (planeProb sch w ss fixed m nx ny na up bc order) w (planeSol sch nx ny) phi bd psi)
    (k2 : Solved (planeProb sch w ss fixed m nx ny na up bc order) w (planeSol sch nx ny) phi' bd' psi') :
    (∀ o < 4, ∀ a < na, ∃ A, ∀ side < 4, ∀ k < (if side < 2 then ny else nx),
      bd side o a k - bd' side o a k = A * alternating (mu a) (eta a) dx dy nx ny side o k) ∧
    (∀ side < 4, bc side ≠ .reflect → ∀ o < 4, ∀ a < na, ∀ k < (if side < 2 then ny else nx),
      bd side o a k - bd' side o a k = 0) ∧
    ∀ side < 4, bc side = .reflect → ∀ o < 4, Enters side o → ∀ o', Mirror 2 side o o' → ∀ a < na,
      ∀ k < (if side < 2 then ny else nx), bd side o a k - bd' side o a k = bd side o' a k - bd' side o' a k := by
  obtain ⟨e, op, re⟩ := plane_differ hP fixed up order hord sch (fun a i j => by
      rw [hsch]; exact (C27_schemes_linear (fun x : K => x) (mu a) (eta a) 0 (dx i) (dy j) 0 _).2.2.2.1)
    (fun a i j c1 c2 c3 c4 c5 => by rw [hsch]; exact cell_dd2 _ _ _ _ _ c1 c2 c3 c4 c5) k1 k2
  refine ⟨fun o ho a ha => ?_, op, re⟩
  have := e o ho a ha
  simp only [hsch] at this
  exact direction hP.hx hP.hy (hP.hmu a ha) (hP.heta a ha) hP.hdx hP.hdy hP.hsig ho this

theorem alternating_ne {mu eta : K} (hmu : 0 < mu) (heta : 0 < eta) {dx dy : Nat → K} {nx ny : Nat}
    (hdx : ∀ i < nx, 0 < dx i) (hdy : ∀ j < ny, 0 < dy j) {side o k : Nat} (ho : o < 4)
    (hk : k < (if side < 2 then ny else nx)) : alternating mu eta dx dy nx ny side o k ≠ 0 := by
  have s0 : (octantSign o 0 : K) ≠ 0 ∧ (octantSign o 1 : K) ≠ 0 := by
    interval_cases o <;> simp [octantSign]
  have n1 : ∀ n : Nat, ((-1 : K)) ^ n ≠ 0 := fun n => pow_ne_zero _ (by norm_num)
  unfold alternating
  split_ifs at hk ⊢ <;> try omega
  · exact mul_ne_zero (mul_ne_zero s0.2 (n1 _)) (div_pos heta (hdy k hk)).ne'
  · exact mul_ne_zero (mul_ne_zero s0.2 (n1 _)) (div_pos heta (hdy k hk)).ne'
  · exact neg_ne_zero.2 (mul_ne_zero (mul_ne_zero s0.1 (n1 _)) (div_pos hmu (hdx k hk)).ne')
  · exact neg_ne_zero.2 (mul_ne_zero (mul_ne_zero s0.1 (n1 _)) (div_pos hmu (hdx k hk)).ne')

/-- Diamond differencing on a rectangle with a side that does not reflect: all fluxes at all sides are determined. -/
theorem C149_2D_partial {mu eta w dx dy sig ss : Nat → K} {m r : K} {nx ny na : Nat} {bc : Nat → BC (Nat → K)}
    (hP : Plane mu eta w dx dy sig ss m r nx ny na bc) (hopen : ∃ side < 4, bc side ≠ .reflect) (fixed : Nat → K)
    (up : Bool) (order : List Nat) (hord : order.Perm (List.range 4))
    (sch : Nat → Nat → Nat → K → K × K → K × (K × K))
    (hsch : ∀ a i j, sch a i j = dd2 (mu a) (eta a) (dx i) (dy j) (sig (i + j * nx)))
    {phi phi' : Nat → K} {bd bd' : Bd (Nat → K)} {psi psi' : Nat → Nat → Nat → K}
    (k1 : Solved (planeProb sch w ss fixed m nx ny na up bc order) w (planeSol sch nx ny) phi bd psi)
    (k2 : Solved (planeProb sch w ss fixed m nx ny na up bc order) w (planeSol sch nx ny) phi' bd' psi') :
    ∀ side < 4, ∀ o < 4, ∀ a < na, ∀ k < (if side < 2 then ny else nx), bd side o a k = bd' side o a k := by
  obtain ⟨e, op, _⟩ := diamond_differ hP fixed up order hord sch hsch k1 k2
  obtain ⟨t, ht, hb⟩ := hopen
  intro side hs o ho a ha k hk
  obtain ⟨A, hA⟩ := e o ho a ha
  have h0 : 0 < (if t < 2 then ny else nx) := by
    split
    · exact hP.hy
    · exact hP.hx
  have z := hA t ht 0 h0
  rw [op t ht hb o ho a ha 0 h0] at z
  have A0 := (mul_eq_zero.1 z.symm).resolve_right
    (alternating_ne (hP.hmu a ha) (hP.heta a ha) hP.hdx hP.hdy ho h0)
  have := hA side hs k hk
  rw [A0, zero_mul] at this
  exact sub_eq_zero.1 this

/-- Four reflecting sides leave at most one number per angle open: two solutions differ at the sides by a multiple
    of the alternating pattern. -/
theorem C149_mirrors {mu eta w dx dy sig ss : Nat → K} {m r : K} {nx ny na : Nat} {bc : Nat → BC (Nat → K)}
    (hP : Plane mu eta w dx dy sig ss m r nx ny na bc) (hr : ∀ side < 4, bc side = .reflect) (fixed : Nat → K)
    (up : Bool) (order : List Nat) (hord : order.Perm (List.range 4))
    (sch : Nat → Nat → Nat → K → K × K → K × (K × K))
    (hsch : ∀ a i j, sch a i j = dd2 (mu a) (eta a) (dx i) (dy j) (sig (i + j * nx)))
    {phi phi' : Nat → K} {bd bd' : Bd (Nat → K)} {psi psi' : Nat → Nat → Nat → K}
    (k1 : Solved (planeProb sch w ss fixed m nx ny na up bc order) w (planeSol sch nx ny) phi bd psi)
    (k2 : Solved (planeProb sch w ss fixed m nx ny na up bc order) w (planeSol sch nx ny) phi' bd' psi') :
    ∀ a < na, ∃ A, ∀ side < 4, ∀ o < 4, ∀ k < (if side < 2 then ny else nx),
      bd side o a k = bd' side o a k + A * alternating (mu a) (eta a) dx dy nx ny side o k := by
  obtain ⟨e, _, re⟩ := diamond_differ hP fixed up order hord sch hsch k1 k2
  intro a ha
  obtain ⟨A0, h0⟩ := e 0 (by omega) a ha
  obtain ⟨A1, h1⟩ := e 1 (by omega) a ha
  obtain ⟨A2, h2⟩ := e 2 (by omega) a ha
  obtain ⟨A3, h3⟩ := e 3 (by omega) a ha
  have same : ∀ side < 4, ∀ o < 4, ∀ o', Enters side o → Mirror 2 side o o' → ∀ k,
      alternating (mu a) (eta a) dx dy nx ny side o' k = alternating (mu a) (eta a) dx dy nx ny side o k := by
    intro side hs o ho o' _ hm k
    have m0 := hm.2 0 (by omega)
    have m1 := hm.2 1 (by omega)
    unfold alternating
    interval_cases side <;> simp at m0 m1 ⊢ <;> simp [m0, m1]
  have link : ∀ side < 4, ∀ o < 4, Enters side o → ∀ o', Mirror 2 side o o' → ∀ A A',
      (∀ side < 4, ∀ k < (if side < 2 then ny else nx),
        bd side o a k - bd' side o a k = A * alternating (mu a) (eta a) dx dy nx ny side o k) →
      (∀ side < 4, ∀ k < (if side < 2 then ny else nx),
        bd side o' a k - bd' side o' a k = A' * alternating (mu a) (eta a) dx dy nx ny side o' k) → A = A' := by
    intro side hs o ho he o' hm A A' hA hA'
    have h0 : 0 < (if side < 2 then ny else nx) := by
      split
      · exact hP.hy
      · exact hP.hx
    have := re side hs (hr side hs) o ho he o' hm a ha 0 h0
    rw [hA side hs 0 h0, hA' side hs 0 h0, same side hs o ho o' he hm] at this
    exact mul_right_cancel₀ (alternating_ne (hP.hmu a ha) (hP.heta a ha) hP.hdx hP.hdy ho h0) this
  have l1 : A0 = A1 := link 0 (by omega) 0 (by omega) (by decide) 1 (by decide) _ _ h0 h1
  have l2 : A1 = A2 := link 2 (by omega) 1 (by omega) (by decide) 2 (by decide) _ _ h1 h2
  have l3 : A0 = A3 := link 2 (by omega) 0 (by omega) (by decide) 3 (by decide) _ _ h0 h3
  refine ⟨A0, fun side hs o ho k hk => ?_⟩
  rw [← sub_eq_iff_eq_add']
  interval_cases o
  · exact h0 side hs k hk
  · rw [l1]; exact h1 side hs k hk
  · rw [l1, l2]; exact h2 side hs k hk
  · rw [l3]; exact h3 side hs k hk

end main

/-! ### The alternating pattern solves the cell equations -/

section pattern
variable {K : Type} [Field K] [LinearOrder K] [IsStrictOrderedRing K]

theorem alternating_solves (mu eta : K) (dx dy sig : Nat → K) (nx ny : Nat) (o : Nat) (ho : o < 4) :
    Solves2 nx ny (fun i j => dd2 mu eta (dx i) (dy j) (sig (i + j * nx)) 0) o
      (fun side k => alternating mu eta dx dy nx ny side o k) (fun _ => 0) := by
  let sg : Nat → K := fun d => (octantSign o d : K)
  let at' : Nat → Nat → Nat → Nat := fun n d p => if 0 < octantSign o d then p else n - p
  have s2 : ∀ d < 2, sg d * sg d = 1 := by
    intro d hd; simp only [sg]; interval_cases o <;> interval_cases d <;> simp [octantSign]
  have face : ∀ n d p, d < 2 → p < n → (-1 : K) ^ at' n d p = sg d * (-1) ^ posn n o d p := by
    intro n d p hd hp
    have hs : octantSign o d = 1 ∨ octantSign o d = -1 := by
      interval_cases o <;> interval_cases d <;> simp [octantSign]
    simp only [at', sg, posn]
    rcases hs with hs | hs
    · simp [hs]
    · obtain ⟨t, rfl⟩ : ∃ t, n = t + 1 + p := ⟨n - 1 - p, by omega⟩
      have e1 : t + 1 + p - p = t + 1 := by omega
      have e2 : t + 1 + p - 1 - p = t := by omega
      simp [hs, e1, e2, pow_succ]
  have step : ∀ n d p, p < n → (-1 : K) ^ at' n d (p + 1) = -(-1) ^ at' n d p := by
    intro n d p hp
    simp only [at']
    split
    · rw [pow_succ]; ring
    · obtain ⟨t, rfl⟩ : ∃ t, n = t + 1 + p := ⟨n - 1 - p, by omega⟩
      have e1 : t + 1 + p - p = t + 1 := by omega
      have e2 : t + 1 + p - (p + 1) = t := by omega
      rw [e1, e2, pow_succ]; ring
  refine ⟨fun p q => sg 1 * (-1) ^ at' nx 0 p * (-1) ^ posn ny o 1 q * (eta / dy (posn ny o 1 q)),
    fun p q => -(sg 0 * (-1) ^ at' ny 1 q * (-1) ^ posn nx o 0 p * (mu / dx (posn nx o 0 p))),
    fun q hq => ?_, fun p hp => ?_, fun p hp q hq => ?_⟩
  · simp only [at', sg]
    interval_cases o <;> simp [octantSign, entry, exit, alternating, pow_add]
  · simp only [at', sg]
    interval_cases o <;> simp [octantSign, entry, exit, alternating, pow_add]
  · have c : 2 * mu / dx (posn nx o 0 p) * (sg 1 * (-1) ^ at' nx 0 p * (-1) ^ posn ny o 1 q * (eta / dy (posn ny o 1 q))) +
        2 * eta / dy (posn ny o 1 q) *
          -(sg 0 * (-1) ^ at' ny 1 q * (-1) ^ posn nx o 0 p * (mu / dx (posn nx o 0 p))) = 0 := by
      rw [face nx 0 p (by omega) hp, face ny 1 q (by omega) hq]
      ring
    simp only [dd2]
    rw [zero_add, c, mul_zero, step nx 0 p hp, step ny 1 q hq]
    refine Prod.ext rfl (Prod.ext ?_ ?_)
    · dsimp only; ring
    · dsimp only; ring

/-- And no less: with four reflecting sides any multiple of the pattern can be added to a solution, for every angle
    its own. -/
theorem C149_undetermined (mu eta w dx dy sig fixed : Nat → K) (scat : (Nat → K) → Nat → K) (mtod : Nat → Nat → K)
    (disc : List (Nat → Nat → Nat → K)) (nx ny na : Nat) (up : Bool) (bc : Nat → BC (Nat → K)) (order : List Nat)
    (hord : order.Perm (List.range 4)) (hr : ∀ side < 4, bc side = .reflect) (phi : Nat → K) (bd : Bd (Nat → K))
    (psi : Nat → Nat → Nat → K) (A : Nat → K) :
    let sch := fun a i j => dd2 (mu a) (eta a) (dx i) (dy j) (sig (i + j * nx))
    Solved (prob2 sch w nx ny na up bc order scat fixed mtod disc) w (planeSol sch nx ny) phi bd psi →
      Solved (prob2 sch w nx ny na up bc order scat fixed mtod disc) w (planeSol sch nx ny) phi
        (fun side o a k => bd side o a k + A a * alternating (mu a) (eta a) dx dy nx ny side o k) psi := by
  intro sch k
  have hsw := sweeps2 sch (fun a i j => (C27_schemes_linear (fun x : K => x) (mu a) (eta a) 0 (dx i) (dy j) 0 _).2.2.2.1)
    w nx ny na up bc order hord scat fixed mtod disc
  refine ⟨fun o ho a ha => ?_, k.flux, fun side hs hb => ?_, fun side hs ps hb => ?_, fun side hs hb o ho he o' hm a ha i j hi => ?_⟩
  · refine hsw.lin 1 (A a) (fun c => (fixed c + scat (Prob.moments (prob2 sch w nx ny na up bc order scat fixed mtod disc) phi) c) *
        mtod o a) (fun _ => 0)
      (fun c => (fixed c + scat (Prob.moments (prob2 sch w nx ny na up bc order scat fixed mtod disc) phi) c) * mtod o a)
      o a (fun f => bd f o a) (fun side k => alternating (mu a) (eta a) dx dy nx ny side o k)
      (fun side k => bd side o a k + A a * alternating (mu a) (eta a) dx dy nx ny side o k)
      (psi o a) (fun _ => 0) (psi o a) ho (k.cells o ho a ha) (alternating_solves (mu a) (eta a) dx dy sig nx ny o ho)
      (fun c _ => ?_) (fun c => ?_) (fun side hs i j hi => ?_)
    · rw [one_mul, mul_zero, add_zero]
    · rw [one_mul, mul_zero, add_zero]
    · change bd side o a i + A a * alternating (mu a) (eta a) dx dy nx ny side o i =
        1 * bd side o a i + A a * alternating (mu a) (eta a) dx dy nx ny side o i
      rw [one_mul]
  · exact absurd ((hr side hs).symm.trans hb) (by simp)
  · exact absurd ((hr side hs).symm.trans hb) (by simp)
  · have h1 := k.reflect side hs hb o ho he o' hm a ha i j hi
    change bd side o a i - bd side o' a i = 0 at h1
    change bd side o a i + A a * alternating (mu a) (eta a) dx dy nx ny side o i -
      (bd side o' a i + A a * alternating (mu a) (eta a) dx dy nx ny side o' i) = 0
    have same : alternating (mu a) (eta a) dx dy nx ny side o' i = alternating (mu a) (eta a) dx dy nx ny side o i := by
      have m0 := hm.2 0 Nat.two_pos
      have m1 := hm.2 1 Nat.one_lt_two
      have hs' : side < 4 := hs
      unfold alternating
      interval_cases side <;> simp at m0 m1 ⊢ <;> simp [m0, m1]
    rw [same]
    linear_combination h1

/-- The alternating pattern is silent between four mirrors. -/
theorem C149_silent (mu eta w dx dy sig fixed : Nat → K) (scat : (Nat → K) → Nat → K) (mtod : Nat → Nat → K)
    (disc : List (Nat → Nat → Nat → K)) (nx ny na : Nat) (up : Bool) (bc : Nat → BC (Nat → K)) (order : List Nat)
    (hord : order.Perm (List.range 4)) (hr : ∀ side < 4, bc side = .reflect) (A : Nat → K) :
    let sch := fun a i j => dd2 (mu a) (eta a) (dx i) (dy j) (sig (i + j * nx))
    Silent (prob2 sch w nx ny na up bc order scat fixed mtod disc) (planeSol sch nx ny)
      (fun side o a k => A a * alternating (mu a) (eta a) dx dy nx ny side o k) := by
  intro sch
  have hsw := sweeps2 sch (fun a i j => (C27_schemes_linear (fun x : K => x) (mu a) (eta a) 0 (dx i) (dy j) 0 _).2.2.2.1)
    w nx ny na up bc order hord scat fixed mtod disc
  refine ⟨fun o ho a ha => ?_, fun side hs hb => absurd (hr side hs) hb, fun side hs hb o ho he o' hm a ha i j hi => ?_⟩
  · refine ⟨fun _ => 0, fun _ _ => rfl, hsw.lin (A a) 0 (fun _ => 0) (fun _ => 0) (fun _ => 0) o a
      (fun side k => alternating (mu a) (eta a) dx dy nx ny side o k)
      (fun side k => alternating (mu a) (eta a) dx dy nx ny side o k)
      (fun side k => A a * alternating (mu a) (eta a) dx dy nx ny side o k)
      (fun _ => 0) (fun _ => 0) (fun _ => 0) ho (alternating_solves (mu a) (eta a) dx dy sig nx ny o ho)
      (alternating_solves (mu a) (eta a) dx dy sig nx ny o ho)
      (fun c _ => by ring) (fun c => by ring) (fun side hs i j hi => ?_)⟩
    change A a * alternating (mu a) (eta a) dx dy nx ny side o i =
      A a * alternating (mu a) (eta a) dx dy nx ny side o i + 0 * alternating (mu a) (eta a) dx dy nx ny side o i
    ring
  · change A a * alternating (mu a) (eta a) dx dy nx ny side o' i = A a * alternating (mu a) (eta a) dx dy nx ny side o i
    have m0 := hm.2 0 Nat.two_pos
    have m1 := hm.2 1 Nat.one_lt_two
    have hs' : side < 4 := hs
    congr 1
    unfold alternating
    interval_cases side <;> simp at m0 m1 ⊢ <;> simp [m0, m1]

end pattern

/-! ## Boxes -/

section box
variable {K : Type} [Field K] [LinearOrder K] [IsStrictOrderedRing K]

/-- Data of a box that scatters less than it collides. -/
structure Brick (mu eta xi w dx dy dz sig ss : Nat → K) (m r : K) (nx ny nz na : Nat)
    (bc : Nat → BC (Nat → Nat → K)) : Prop where
  hmu : ∀ a < na, 0 < mu a
  heta : ∀ a < na, 0 < eta a
  hxi : ∀ a < na, 0 < xi a
  weight : ∀ a < na, 0 < w a
  norm : m * ∑ _o ∈ range 8, ∑ a ∈ range na, w a = 1
  hdx : ∀ i < nx, 0 < dx i
  hdy : ∀ j < ny, 0 < dy j
  hdz : ∀ k < nz, 0 < dz k
  hsig : ∀ c < nx * ny * nz, 0 < sig c
  scat : ∀ c < nx * ny * nz, |ss c| ≤ r * sig c
  nonneg : 0 ≤ r
  less : r < 1
  np : ∀ s < 6, bc s ≠ .periodic
  hx : 0 < nx
  hy : 0 < ny
  hz : 0 < nz
  fit : nx ≤ 2 ^ 32

/-- Cell equations of diamond differencing in a box. -/
abbrev brickSch (mu eta xi dx dy dz sig : Nat → K) (nx ny : Nat) (a i j k : Nat) : K → K × K × K → K × (K × K × K) :=
  dd3 (mu a) (eta a) (xi a) (dx i) (dy j) (dz k) (sig (i + j * nx + k * nx * ny))

/-- The same for all cells of a direction. -/
abbrev brickSol (sch : Nat → Nat → Nat → Nat → K → K × K × K → K × (K × K × K)) (nx ny nz : Nat) (q : Nat → K) (o a : Nat)
    (b : Nat → Nat → Nat → K) (p : Nat → K) : Prop :=
  Solves3 nx ny nz (fun i j k => sch a i j k (q (i + j * nx + k * nx * ny))) o b p

/-- Cells across a side, first index. -/
abbrev rows (ny nz side : Nat) : Nat := if side < 4 then nz else ny
/-- Cells across a side, second index. -/
abbrev cols (nx ny side : Nat) : Nat := if side < 2 then ny else nx

theorem chain {n : Nat} {f : Nat → K} (h : ∀ p < n, f (p + 1) = -f p) {t : Nat} (ht : t ≤ n) (h0 : f t = 0) :
    ∀ p ≤ n, f p = 0 := by
  have e : ∀ p ≤ n, f p = (-1) ^ p * f 0 := by
    intro p
    induction p with
    | zero => intro _; ring
    | succ p ih => intro hp; rw [h p (by omega), ih (by omega)]; ring
  have z : f 0 = 0 := by
    rw [e t ht] at h0
    exact (mul_eq_zero.1 h0).resolve_left (pow_ne_zero _ (by norm_num))
  intro p hp
  rw [e p hp, z, mul_zero]

theorem dd3_empty {mu eta xi dx dy dz sig v h z v' h' z' : K} (hmu : 0 < mu) (heta : 0 < eta) (hxi : 0 < xi) (hdx : 0 < dx)
    (hdy : 0 < dy) (hdz : 0 < dz) (hs : 0 < sig) (e : dd3 mu eta xi dx dy dz sig 0 (v, h, z) = (0, (v', h', z'))) :
    mu / dx * v + eta / dy * h + xi / dz * z = 0 ∧ v' = -v ∧ h' = -h ∧ z' = -z := by
  have c1 := congrArg Prod.fst e
  have c2 := congrArg (fun x => x.2.1) e
  have c3 := congrArg (fun x => x.2.2.1) e
  have c4 := congrArg (fun x => x.2.2.2) e
  simp only [dd3] at c1 c2 c3 c4
  rw [c1] at c2 c3 c4
  refine ⟨?_, by rw [← c2]; ring, by rw [← c3]; ring, by rw [← c4]; ring⟩
  have d : 0 < 1 / (sig + 2 * mu / dx + 2 * eta / dy + 2 * xi / dz) := by positivity
  have := (mul_eq_zero.1 c1).resolve_left d.ne'
  have h2 : 2 * (mu / dx * v + eta / dy * h + xi / dz * z) = 0 := by rw [← this]; ring
  linarith

theorem brick_differ {mu eta xi w dx dy dz sig ss : Nat → K} {m r : K} {nx ny nz na : Nat} {bc : Nat → BC (Nat → Nat → K)}
    (hP : Brick mu eta xi w dx dy dz sig ss m r nx ny nz na bc) (fixed : Nat → K) (up : Bool) (order : List Nat)
    (hord : order.Perm (List.range 8)) {phi phi' : Nat → K} {bd bd' : Bd (Nat → Nat → K)}
    {psi psi' : Nat → Nat → Nat → K}
    (k1 : Solved (prob3 (brickSch mu eta xi dx dy dz sig nx ny) w nx ny nz na up bc order (fun f c => ss c * f c) fixed
      (fun _ _ => m) []) w (brickSol (brickSch mu eta xi dx dy dz sig nx ny) nx ny nz) phi bd psi)
    (k2 : Solved (prob3 (brickSch mu eta xi dx dy dz sig nx ny) w nx ny nz na up bc order (fun f c => ss c * f c) fixed
      (fun _ _ => m) []) w (brickSol (brickSch mu eta xi dx dy dz sig nx ny) nx ny nz) phi' bd' psi') :
    (∀ o < 8, ∀ a < na, Solves3 nx ny nz (fun i j k => brickSch mu eta xi dx dy dz sig nx ny a i j k 0) o
      (fun f i j => bd f o a i j - bd' f o a i j) (fun _ => 0)) ∧
    ∀ side < 6, bc side ≠ .reflect → ∀ o < 8, ∀ a < na, ∀ i < rows ny nz side, ∀ j < cols nx ny side,
      bd side o a i j - bd' side o a i j = 0 := by
  have e3 : ∀ k, k * nx * ny = k * (nx * ny) := fun k => Nat.mul_assoc _ _ _
  have lin : ∀ a i j k, LinEq3 (brickSch mu eta xi dx dy dz sig nx ny a i j k) := fun a i j k =>
    (C27_schemes_linear (fun x : K => x) (mu a) (eta a) (xi a) (dx i) (dy j) (dz k) _).2.2.2.2.2.2
  let V : Nat → K := fun c => dx (c % (nx * ny) % nx) * dy (c % (nx * ny) / nx) * dz (c / (nx * ny))
  have vol : ∀ i j k, i < nx → j < ny → V (i + j * nx + k * nx * ny) = dx i * dy j * dz k := fun i j k hi hj => by
    simp only [V]
    have hc := cell2_lt hi hj
    rw [e3, Nat.add_mul_mod_self_right, Nat.mod_eq_of_lt hc, Nat.add_mul_div_right _ _ (by omega : 0 < nx * ny),
      Nat.div_eq_of_lt hc, Nat.zero_add, Nat.add_mul_mod_self_right, Nat.mod_eq_of_lt hi,
      Nat.add_mul_div_right _ _ (by omega : 0 < nx), Nat.div_eq_of_lt hi, Nat.zero_add]
  have hn2 : 0 < nx * ny := Nat.mul_pos hP.hx hP.hy
  have hsw := sweeps3 (brickSch mu eta xi dx dy dz sig nx ny) lin w nx ny nz na hP.fit up bc order hord
    (fun f c => ss c * f c) fixed (fun _ _ => m) []
  obtain ⟨z, e, op, -⟩ := differ hsw (V := V) (sig := sig) (ss := ss) (m := m) (r := r)
    ⟨hP.weight, fun _ _ _ _ => rfl, hP.norm, fun c hc => mul_pos (mul_pos (hP.hdx _ (Nat.mod_lt _ hP.hx))
        (hP.hdy _ (Nat.div_lt_of_lt_mul (Nat.mod_lt _ hn2)))) (hP.hdz _ (Nat.div_lt_of_lt_mul hc)),
      hP.hsig, fun _ _ _ => rfl, hP.scat, hP.nonneg, hP.less, rfl, hP.np⟩
    (dissipates3 (brickSch mu eta xi dx dy dz sig nx ny) w nx ny nz na up bc order _ _ _ _ V sig
      (fun a k j => mu a / 2 * (dy j * dz k))
      (fun a k i => eta a / 2 * (dx i * dz k)) (fun a j i => xi a / 2 * (dx i * dy j))
      (fun a ha k hk j hj => mul_pos (half_pos (hP.hmu a ha)) (mul_pos (hP.hdy j hj) (hP.hdz k hk)))
      (fun a ha k hk i hi => mul_pos (half_pos (hP.heta a ha)) (mul_pos (hP.hdx i hi) (hP.hdz k hk)))
      (fun a ha j hj i hi => mul_pos (half_pos (hP.hxi a ha)) (mul_pos (hP.hdx i hi) (hP.hdy j hj)))
      fun a ha i hi j hj k hk => by
        rw [vol i j k hi hj]
        exact cell_dd3 _ _ _ _ _ _ _ (hP.hmu a ha) (hP.heta a ha) (hP.hxi a ha) (hP.hdx i hi) (hP.hdy j hj)
          (hP.hdz k hk) (hP.hsig _ (cell3_lt hi hj hk))) k1 k2
  have get : ∀ side < 6, ∀ o a, ∀ i < rows ny nz side, ∀ j < cols nx ny side,
      errBd (prob3 (brickSch mu eta xi dx dy dz sig nx ny) w nx ny nz na up bc order (fun f c => ss c * f c) fixed
        (fun _ _ => m) []) bd bd' side o a i j = bd side o a i j - bd' side o a i j :=
    fun side hs o a i hi j hj => get_errBd hsw bd bd' side hs o a i j ((face3 nx ny nz side i j hs).2 ⟨hi, hj⟩)
  refine ⟨fun o ho a ha => ?_, fun side hs hb o ho a ha i hi j hj => ?_⟩
  · obtain ⟨E, G, Z, e1, e2, e3, e4⟩ := e o ho a ha
    obtain ⟨x1, x2, _, _, x5, x6⟩ := entry_facts 3 (by omega) (by omega) o ho 0 (by omega)
    obtain ⟨y1, y2, _, _, y5, y6⟩ := entry_facts 3 (by omega) (by omega) o ho 1 (by omega)
    obtain ⟨z1, z2, _, _, z5, z6⟩ := entry_facts 3 (by omega) (by omega) o ho 2 (by omega)
    refine ⟨E, G, Z, fun q hq t ht => ?_, fun p hp t ht => ?_, fun p hp q hq => ?_, fun p hp q hq t ht => ?_⟩
    · have hj := posn_lt (o := o) (d := 1) hq
      have hk := posn_lt (o := o) (d := 2) ht
      obtain ⟨f1, f2⟩ := e1 q hq t ht
      exact ⟨f1.trans (get _ x1 o a _ (by rw [rows, if_pos (by omega)]; exact hk) _ (by rw [cols, if_pos (by omega)]; exact hj)),
        (get _ x2 o a _ (by rw [rows, if_pos (by omega)]; exact hk) _ (by rw [cols, if_pos (by omega)]; exact hj)).symm.trans f2⟩
    · have hi := posn_lt (o := o) (d := 0) hp
      have hk := posn_lt (o := o) (d := 2) ht
      obtain ⟨f1, f2⟩ := e2 p hp t ht
      exact ⟨f1.trans (get _ y1 o a _ (by rw [rows, if_pos (by omega)]; exact hk) _ (by rw [cols, if_neg (by omega)]; exact hi)),
        (get _ y2 o a _ (by rw [rows, if_pos (by omega)]; exact hk) _ (by rw [cols, if_neg (by omega)]; exact hi)).symm.trans f2⟩
    · have hi := posn_lt (o := o) (d := 0) hp
      have hj := posn_lt (o := o) (d := 1) hq
      obtain ⟨f1, f2⟩ := e3 p hp q hq
      exact ⟨f1.trans (get _ z1 o a _ (by rw [rows, if_neg (by omega)]; exact hj) _ (by rw [cols, if_neg (by omega)]; exact hi)),
        (get _ z2 o a _ (by rw [rows, if_neg (by omega)]; exact hj) _ (by rw [cols, if_neg (by omega)]; exact hi)).symm.trans f2⟩
    · have hc := cell3_lt (posn_lt (o := o) (d := 0) hp) (posn_lt (o := o) (d := 1) hq) (posn_lt (o := o) (d := 2) ht)
      have c := e4 p hp q hq t ht
      have c0 := z o ho a ha _ hc
      dsimp only at c ⊢
      rw [c, c0, sub_self]
  · exact sub_eq_zero.2 (op side hs hb o ho a ha i j ((face3 nx ny nz side i j hs).2 ⟨hi, hj⟩))

/-- In a box the fluxes at the sides are determined if sides of two different directions do not reflect. -/
theorem C149_3D_partial {mu eta xi w dx dy dz sig ss : Nat → K} {m r : K} {nx ny nz na : Nat}
    {bc : Nat → BC (Nat → Nat → K)} (hP : Brick mu eta xi w dx dy dz sig ss m r nx ny nz na bc)
    (hopen : ∃ s < 6, ∃ t < 6, bc s ≠ .reflect ∧ bc t ≠ .reflect ∧ s / 2 ≠ t / 2) (fixed : Nat → K) (up : Bool)
    (order : List Nat) (hord : order.Perm (List.range 8)) {phi phi' : Nat → K} {bd bd' : Bd (Nat → Nat → K)}
    {psi psi' : Nat → Nat → Nat → K}
    (k1 : Solved (prob3 (brickSch mu eta xi dx dy dz sig nx ny) w nx ny nz na up bc order (fun f c => ss c * f c) fixed
      (fun _ _ => m) []) w (brickSol (brickSch mu eta xi dx dy dz sig nx ny) nx ny nz) phi bd psi)
    (k2 : Solved (prob3 (brickSch mu eta xi dx dy dz sig nx ny) w nx ny nz na up bc order (fun f c => ss c * f c) fixed
      (fun _ _ => m) []) w (brickSol (brickSch mu eta xi dx dy dz sig nx ny) nx ny nz) phi' bd' psi') :
    ∀ side < 6, ∀ o < 8, ∀ a < na, ∀ i < rows ny nz side, ∀ j < cols nx ny side, bd side o a i j = bd' side o a i j := by
  obtain ⟨e, op⟩ := brick_differ hP fixed up order hord k1 k2
  intro side hs o ho a ha
  obtain ⟨E, G, Z, e1, e2, e3, e4⟩ := e o ho a ha
  have c : ∀ p < nx, ∀ q < ny, ∀ t < nz, _ := fun p hp q hq t ht =>
    dd3_empty (hP.hmu a ha) (hP.heta a ha) (hP.hxi a ha) (hP.hdx _ (posn_lt (o := o) (d := 0) hp))
      (hP.hdy _ (posn_lt (o := o) (d := 1) hq)) (hP.hdz _ (posn_lt (o := o) (d := 2) ht))
      (hP.hsig _ (cell3_lt (posn_lt hp) (posn_lt hq) (posn_lt ht))) (e4 p hp q hq t ht)
  have side_of : ∀ s < 6, s = entry o (s / 2) ∨ s = exit o (s / 2) := by
    have : ∀ o < 8, ∀ s < 6, s = entry o (s / 2) ∨ s = exit o (s / 2) := by decide +kernel
    exact this o ho
  -- an open side clears its direction
  have clear0 : ∀ s < 6, bc s ≠ .reflect → s / 2 = 0 → ∀ p ≤ nx, ∀ q < ny, ∀ t < nz, E p q t = 0 := by
    intro s hs hb hd p hp q hq t ht
    have z := op s hs hb o ho a ha (posn nz o 2 t) (by rw [rows, if_pos (by omega)]; exact posn_lt ht) (posn ny o 1 q)
      (by rw [cols, if_pos (by omega)]; exact posn_lt hq)
    rcases side_of s hs with h | h <;> rw [hd] at h <;> rw [h] at z
    · exact chain (f := fun p => E p q t) (fun p hp => (c p hp q hq t ht).2.1) (Nat.zero_le _) ((e1 q hq t ht).1.trans z) p hp
    · exact chain (f := fun p => E p q t) (fun p hp => (c p hp q hq t ht).2.1) (le_refl _) ((e1 q hq t ht).2.symm.trans z) p hp
  have clear1 : ∀ s < 6, bc s ≠ .reflect → s / 2 = 1 → ∀ p < nx, ∀ q ≤ ny, ∀ t < nz, G p q t = 0 := by
    intro s hs hb hd p hp q hq t ht
    have z := op s hs hb o ho a ha (posn nz o 2 t) (by rw [rows, if_pos (by omega)]; exact posn_lt ht) (posn nx o 0 p)
      (by rw [cols, if_neg (by omega)]; exact posn_lt hp)
    rcases side_of s hs with h | h <;> rw [hd] at h <;> rw [h] at z
    · exact chain (f := fun q => G p q t) (fun q hq => (c p hp q hq t ht).2.2.1) (Nat.zero_le _) ((e2 p hp t ht).1.trans z) q hq
    · exact chain (f := fun q => G p q t) (fun q hq => (c p hp q hq t ht).2.2.1) (le_refl _) ((e2 p hp t ht).2.symm.trans z) q hq
  have clear2 : ∀ s < 6, bc s ≠ .reflect → s / 2 = 2 → ∀ p < nx, ∀ q < ny, ∀ t ≤ nz, Z p q t = 0 := by
    intro s hs hb hd p hp q hq t ht
    have z := op s hs hb o ho a ha (posn ny o 1 q) (by rw [rows, if_neg (by omega)]; exact posn_lt hq) (posn nx o 0 p)
      (by rw [cols, if_neg (by omega)]; exact posn_lt hp)
    rcases side_of s hs with h | h <;> rw [hd] at h <;> rw [h] at z
    · exact chain (f := fun t => Z p q t) (fun t ht => (c p hp q hq t ht).2.2.2) (Nat.zero_le _) ((e3 p hp q hq).1.trans z) t ht
    · exact chain (f := fun t => Z p q t) (fun t ht => (c p hp q hq t ht).2.2.2) (le_refl _) ((e3 p hp q hq).2.symm.trans z) t ht
  have px : ∀ p < nx, mu a / dx (posn nx o 0 p) ≠ 0 := fun p hp => (div_pos (hP.hmu a ha) (hP.hdx _ (posn_lt hp))).ne'
  have py : ∀ q < ny, eta a / dy (posn ny o 1 q) ≠ 0 := fun q hq => (div_pos (hP.heta a ha) (hP.hdy _ (posn_lt hq))).ne'
  have pz : ∀ t < nz, xi a / dz (posn nz o 2 t) ≠ 0 := fun t ht => (div_pos (hP.hxi a ha) (hP.hdz _ (posn_lt ht))).ne'
  have all : (∀ p ≤ nx, ∀ q < ny, ∀ t < nz, E p q t = 0) ∧ (∀ p < nx, ∀ q ≤ ny, ∀ t < nz, G p q t = 0) ∧
      ∀ p < nx, ∀ q < ny, ∀ t ≤ nz, Z p q t = 0 := by
    have third0 : (∀ p < nx, ∀ q ≤ ny, ∀ t < nz, G p q t = 0) → (∀ p < nx, ∀ q < ny, ∀ t ≤ nz, Z p q t = 0) →
        ∀ p ≤ nx, ∀ q < ny, ∀ t < nz, E p q t = 0 := fun hG hZ p hp q hq t ht =>
      chain (f := fun p => E p q t) (fun p hp => (c p hp q hq t ht).2.1) (Nat.zero_le _) (by
        have := (c 0 hP.hx q hq t ht).1
        rw [hG 0 hP.hx q hq.le t ht, hZ 0 hP.hx q hq t ht.le, mul_zero, mul_zero, add_zero, add_zero] at this
        exact (mul_eq_zero.1 this).resolve_left (px 0 hP.hx)) p hp
    have third1 : (∀ p ≤ nx, ∀ q < ny, ∀ t < nz, E p q t = 0) → (∀ p < nx, ∀ q < ny, ∀ t ≤ nz, Z p q t = 0) →
        ∀ p < nx, ∀ q ≤ ny, ∀ t < nz, G p q t = 0 := fun hE hZ p hp q hq t ht =>
      chain (f := fun q => G p q t) (fun q hq => (c p hp q hq t ht).2.2.1) (Nat.zero_le _) (by
        have := (c p hp 0 hP.hy t ht).1
        rw [hE p hp.le 0 hP.hy t ht, hZ p hp 0 hP.hy t ht.le, mul_zero, mul_zero, add_zero, zero_add] at this
        exact (mul_eq_zero.1 this).resolve_left (py 0 hP.hy)) q hq
    have third2 : (∀ p ≤ nx, ∀ q < ny, ∀ t < nz, E p q t = 0) → (∀ p < nx, ∀ q ≤ ny, ∀ t < nz, G p q t = 0) →
        ∀ p < nx, ∀ q < ny, ∀ t ≤ nz, Z p q t = 0 := fun hE hG p hp q hq t ht =>
      chain (f := fun t => Z p q t) (fun t ht => (c p hp q hq t ht).2.2.2) (Nat.zero_le _) (by
        have := (c p hp q hq 0 hP.hz).1
        rw [hE p hp.le q hq 0 hP.hz, hG p hp q hq.le 0 hP.hz, mul_zero, mul_zero, zero_add, zero_add] at this
        exact (mul_eq_zero.1 this).resolve_left (pz 0 hP.hz)) t ht
    obtain ⟨s, hs, t, ht, bs, bt, hne⟩ := hopen
    have ds : s / 2 = 0 ∨ s / 2 = 1 ∨ s / 2 = 2 := by omega
    have dt : t / 2 = 0 ∨ t / 2 = 1 ∨ t / 2 = 2 := by omega
    have f01 := fun (hE : ∀ p ≤ nx, ∀ q < ny, ∀ t < nz, E p q t = 0) (hG : ∀ p < nx, ∀ q ≤ ny, ∀ t < nz, G p q t = 0) =>
      And.intro hE (And.intro hG (third2 hE hG))
    have f02 := fun (hE : ∀ p ≤ nx, ∀ q < ny, ∀ t < nz, E p q t = 0) (hZ : ∀ p < nx, ∀ q < ny, ∀ t ≤ nz, Z p q t = 0) =>
      And.intro hE (And.intro (third1 hE hZ) hZ)
    have f12 := fun (hG : ∀ p < nx, ∀ q ≤ ny, ∀ t < nz, G p q t = 0) (hZ : ∀ p < nx, ∀ q < ny, ∀ t ≤ nz, Z p q t = 0) =>
      And.intro (third0 hG hZ) (And.intro hG hZ)
    rcases ds with d | d | d <;> rcases dt with d' | d' | d'
    · omega
    · exact f01 (clear0 s hs bs d) (clear1 t ht bt d')
    · exact f02 (clear0 s hs bs d) (clear2 t ht bt d')
    · exact f01 (clear0 t ht bt d') (clear1 s hs bs d)
    · omega
    · exact f12 (clear1 s hs bs d) (clear2 t ht bt d')
    · exact f02 (clear0 t ht bt d') (clear2 s hs bs d)
    · exact f12 (clear1 t ht bt d') (clear2 s hs bs d)
    · omega
  obtain ⟨aE, aG, aZ⟩ := all
  intro i hi j hj
  refine sub_eq_zero.1 ?_
  have d : side / 2 = 0 ∨ side / 2 = 1 ∨ side / 2 = 2 := by omega
  rcases d with d | d | d
  · rw [rows, if_pos (by omega)] at hi
    rw [cols, if_pos (by omega)] at hj
    have u := e1 _ (posn_lt (o := o) (d := 1) hj) _ (posn_lt (o := o) (d := 2) hi)
    rw [posn_posn hi, posn_posn hj, aE _ (Nat.zero_le _) _ (posn_lt hj) _ (posn_lt hi),
      aE _ (le_refl _) _ (posn_lt hj) _ (posn_lt hi)] at u
    rcases side_of side hs with h | h <;> rw [d] at h <;> rw [h]
    · exact u.1.symm
    · exact u.2
  · rw [rows, if_pos (by omega)] at hi
    rw [cols, if_neg (by omega)] at hj
    have u := e2 _ (posn_lt (o := o) (d := 0) hj) _ (posn_lt (o := o) (d := 2) hi)
    rw [posn_posn hi, posn_posn hj, aG _ (posn_lt hj) _ (Nat.zero_le _) _ (posn_lt hi),
      aG _ (posn_lt hj) _ (le_refl _) _ (posn_lt hi)] at u
    rcases side_of side hs with h | h <;> rw [d] at h <;> rw [h]
    · exact u.1.symm
    · exact u.2
  · rw [rows, if_neg (by omega)] at hi
    rw [cols, if_neg (by omega)] at hj
    have u := e3 _ (posn_lt (o := o) (d := 0) hj) _ (posn_lt (o := o) (d := 1) hi)
    rw [posn_posn hi, posn_posn hj, aZ _ (posn_lt hj) _ (posn_lt hi) _ (Nat.zero_le _),
      aZ _ (posn_lt hj) _ (posn_lt hi) _ (le_refl _)] at u
    rcases side_of side hs with h | h <;> rw [d] at h <;> rw [h]
    · exact u.1.symm
    · exact u.2

theorem layered_solves (mu eta xi : K) (dx dy dz : Nat → K) (sig : Nat → K) (nx ny nz : Nat) (amount : Nat → K) (o : Nat)
    (ho : o < 8) :
    Solves3 nx ny nz (fun i j k => dd3 mu eta xi (dx i) (dy j) (dz k) (sig (i + j * nx + k * nx * ny)) 0) o
      (fun side i j => layered eta xi dy dz ny nz amount side o i j) (fun _ => 0) := by
  let sg : Nat → K := fun d => (octantSign o d : K)
  let at' : Nat → Nat → Nat → Nat := fun n d p => if 0 < octantSign o d then p else n - p
  have face : ∀ n d p, d < 3 → p < n → (-1 : K) ^ at' n d p = sg d * (-1) ^ posn n o d p := by
    intro n d p hd hp
    have hs : octantSign o d = 1 ∨ octantSign o d = -1 := by
      have : ∀ o < 8, ∀ d < 3, octantSign o d = 1 ∨ octantSign o d = -1 := by decide +kernel
      exact this o ho d hd
    simp only [at', sg, posn]
    rcases hs with hs | hs
    · simp [hs]
    · obtain ⟨t, rfl⟩ : ∃ t, n = t + 1 + p := ⟨n - 1 - p, by omega⟩
      have e1 : t + 1 + p - p = t + 1 := by omega
      have e2 : t + 1 + p - 1 - p = t := by omega
      simp [hs, e1, e2, pow_succ]
  have step : ∀ n d p, p < n → (-1 : K) ^ at' n d (p + 1) = -(-1) ^ at' n d p := by
    intro n d p hp
    simp only [at']
    split
    · rw [pow_succ]; ring
    · obtain ⟨t, rfl⟩ : ∃ t, n = t + 1 + p := ⟨n - 1 - p, by omega⟩
      have e1 : t + 1 + p - p = t + 1 := by omega
      have e2 : t + 1 + p - (p + 1) = t := by omega
      rw [e1, e2, pow_succ]; ring
  refine ⟨fun _ _ _ => 0, fun p q t => sg 2 * (-1) ^ at' ny 1 q * (-1) ^ posn nz o 2 t * (xi / dz (posn nz o 2 t)) *
      amount (posn nx o 0 p),
    fun p q t => -(sg 1 * (-1) ^ at' nz 2 t * (-1) ^ posn ny o 1 q * (eta / dy (posn ny o 1 q)) *
      amount (posn nx o 0 p)), fun q hq t ht => ?_, fun p hp t ht => ?_, fun p hp q hq => ?_, fun p hp q hq t ht => ?_⟩
  · interval_cases o <;> simp [octantSign, entry, exit, layered]
  · simp only [at', sg]
    interval_cases o <;> simp [octantSign, entry, exit, layered, pow_add]
  · simp only [at', sg]
    interval_cases o <;> simp [octantSign, entry, exit, layered, pow_add]
  · have c : 2 * eta / dy (posn ny o 1 q) * (sg 2 * (-1) ^ at' ny 1 q * (-1) ^ posn nz o 2 t *
          (xi / dz (posn nz o 2 t)) * amount (posn nx o 0 p)) +
        2 * xi / dz (posn nz o 2 t) * -(sg 1 * (-1) ^ at' nz 2 t * (-1) ^ posn ny o 1 q * (eta / dy (posn ny o 1 q)) *
          amount (posn nx o 0 p)) = 0 := by
      rw [face ny 1 q (by omega) hq, face nz 2 t (by omega) ht]
      ring
    simp only [dd3]
    rw [mul_zero, add_zero, zero_add, c, mul_zero, step ny 1 q hq, step nz 2 t ht]
    refine Prod.ext rfl (Prod.ext ?_ (Prod.ext ?_ ?_))
    · dsimp only; ring
    · dsimp only; ring
    · dsimp only; ring

/-- One direction with open sides is not enough in a box: when the sides across `y` and `z` reflect, every layer in `x`
    can be given any amount of the pattern, for every angle, whatever the sides across `x` are. -/
theorem C149_layers (mu eta xi w dx dy dz sig fixed : Nat → K) (scat : (Nat → K) → Nat → K) (mtod : Nat → Nat → K)
    (disc : List (Nat → Nat → Nat → K)) (nx ny nz na : Nat) (hfit : nx ≤ 2 ^ 32) (up : Bool)
    (bc : Nat → BC (Nat → Nat → K)) (order : List Nat) (hord : order.Perm (List.range 8))
    (hr : ∀ side < 6, 2 ≤ side → bc side = .reflect) (phi : Nat → K) (bd : Bd (Nat → Nat → K))
    (psi : Nat → Nat → Nat → K) (amount : Nat → Nat → K)
    (k : Solved (prob3 (brickSch mu eta xi dx dy dz sig nx ny) w nx ny nz na up bc order scat fixed mtod disc) w
      (brickSol (brickSch mu eta xi dx dy dz sig nx ny) nx ny nz) phi bd psi) :
    Solved (prob3 (brickSch mu eta xi dx dy dz sig nx ny) w nx ny nz na up bc order scat fixed mtod disc) w
      (brickSol (brickSch mu eta xi dx dy dz sig nx ny) nx ny nz) phi
      (fun side o a i j => bd side o a i j + layered (eta a) (xi a) dy dz ny nz (amount a) side o i j) psi := by
  have lin : ∀ a i j k, LinEq3 (brickSch mu eta xi dx dy dz sig nx ny a i j k) := fun a i j k =>
    (C27_schemes_linear (fun x : K => x) (mu a) (eta a) (xi a) (dx i) (dy j) (dz k) _).2.2.2.2.2.2
  have hsw := sweeps3 (brickSch mu eta xi dx dy dz sig nx ny) lin w nx ny nz na hfit up bc order hord scat fixed mtod disc
  have low : ∀ side < 6, bc side ≠ .reflect → ∀ o a i j,
      layered (eta a) (xi a) dy dz ny nz (amount a) side o i j = 0 := fun side hs hb o a i j => by
    have : side < 2 := by
      by_contra h
      exact hb (hr side hs (by omega))
    rw [layered, if_pos this]
  refine ⟨fun o ho a ha => ?_, k.flux, fun side hs hb o ho he a ha i j hi => ?_,
    fun side hs ps hb o ho io hio a ha i j hi => ?_, fun side hs hb o ho he o' hm a ha i j hi => ?_⟩
  · refine hsw.lin 1 1
      (fun c => (fixed c + scat (Prob.moments (prob3 (brickSch mu eta xi dx dy dz sig nx ny) w nx ny nz na up bc order
        scat fixed mtod disc) phi) c) * mtod o a) (fun _ => 0)
      (fun c => (fixed c + scat (Prob.moments (prob3 (brickSch mu eta xi dx dy dz sig nx ny) w nx ny nz na up bc order
        scat fixed mtod disc) phi) c) * mtod o a)
      o a (fun f => bd f o a) (fun side i j => layered (eta a) (xi a) dy dz ny nz (amount a) side o i j)
      (fun side i j => bd side o a i j + layered (eta a) (xi a) dy dz ny nz (amount a) side o i j)
      (psi o a) (fun _ => 0) (psi o a) ho (k.cells o ho a ha)
      (layered_solves (mu a) (eta a) (xi a) dx dy dz sig nx ny nz (amount a) o ho)
      (fun c _ => ?_) (fun c => ?_) (fun side hs i j hi => ?_)
    · rw [one_mul, mul_zero, add_zero]
    · rw [one_mul, mul_zero, add_zero]
    · change bd side o a i j + layered (eta a) (xi a) dy dz ny nz (amount a) side o i j =
        1 * bd side o a i j + 1 * layered (eta a) (xi a) dy dz ny nz (amount a) side o i j
      rw [one_mul, one_mul]
  · have h1 := k.vacuum side hs hb o ho he a ha i j hi
    change bd side o a i j = 0 at h1
    change bd side o a i j + layered (eta a) (xi a) dy dz ny nz (amount a) side o i j = 0
    rw [h1, low side hs (by intro h; exact absurd (h.symm.trans hb) (by simp)), add_zero]
  · have h1 := k.given side hs ps hb o ho io hio a ha i j hi
    change bd side o a i j = ps io a i j at h1
    change bd side o a i j + layered (eta a) (xi a) dy dz ny nz (amount a) side o i j = ps io a i j
    rw [h1, low side hs (by intro h; exact absurd (h.symm.trans hb) (by simp)), add_zero]
  · have h1 := k.reflect side hs hb o ho he o' hm a ha i j hi
    change bd side o a i j - bd side o' a i j = 0 at h1
    change bd side o a i j + layered (eta a) (xi a) dy dz ny nz (amount a) side o i j -
      (bd side o' a i j + layered (eta a) (xi a) dy dz ny nz (amount a) side o' i j) = 0
    have same : layered (eta a) (xi a) dy dz ny nz (amount a) side o' i j =
        layered (eta a) (xi a) dy dz ny nz (amount a) side o i j := by
      have m1 : octantSign o' 1 = if 1 = side / 2 then - octantSign o 1 else octantSign o 1 := hm.2 1 (by change 1 < 3; omega)
      have m2 : octantSign o' 2 = if 2 = side / 2 then - octantSign o 2 else octantSign o 2 := hm.2 2 (by change 2 < 3; omega)
      have hs' : side < 6 := hs
      unfold layered
      interval_cases side <;> simp at m1 m2 ⊢ <;> simp [m1, m2]
    rw [same]
    linear_combination h1

end box

/-! ## The claim without its exception -/

/-- On every rectangle that scatters less than it collides, diamond differencing determines the fluxes at the sides. -/
def C149Claim : Prop :=
  ∀ (mu eta w dx dy sig ss fixed : Nat → ℚ) (m r : ℚ) (nx ny na : Nat) (bc : Nat → BC (Nat → ℚ)) (up : Bool)
    (order : List Nat), Plane mu eta w dx dy sig ss m r nx ny na bc → order.Perm (List.range 4) →
    let sch := fun a i j => dd2 (mu a) (eta a) (dx i) (dy j) (sig (i + j * nx))
    ∀ phi phi' bd bd' psi psi',
      Solved (planeProb sch w ss fixed m nx ny na up bc order) w (planeSol sch nx ny) phi bd psi →
      Solved (planeProb sch w ss fixed m nx ny na up bc order) w (planeSol sch nx ny) phi' bd' psi' →
      ∀ side < 4, ∀ o < 4, ∀ a < na, ∀ k < (if side < 2 then ny else nx), bd side o a k = bd' side o a k

/-- Three columns and two rows of different widths. -/
def widths (i : Nat) : ℚ := i + 1

/-- Sides that reflect, except that two neutrons per angle may be given at the first. -/
def flatSides (given : Bool) (side : Nat) : BC (Nat → ℚ) :=
  if side = 0 ∧ given then .fixed (fun _ _ _ => 2) else .reflect

theorem flat_plane (given : Bool) : Plane (fun a => 1 / ((a : ℚ) + 2)) (fun a => 1 / ((a : ℚ) + 3)) (fun _ => 1 / 8)
    widths widths (fun _ => 1) (fun _ => 1 / 2) (1 : ℚ) (1 / 2) 3 2 2 (flatSides given) where
  hmu := fun a _ => by positivity
  heta := fun a _ => by positivity
  weight := fun _ _ => by norm_num
  norm := by decide +kernel
  hdx := fun i _ => by unfold widths; positivity
  hdy := fun i _ => by unfold widths; positivity
  hsig := fun _ _ => one_pos
  scat := fun _ _ => by norm_num
  nonneg := by norm_num
  less := by norm_num
  np := fun s _ => by unfold flatSides; split <;> simp
  hx := by omega
  hy := by omega

/-- With a source of one its flux is two everywhere. -/
theorem flat_solved (given : Bool) :
    let sch := fun (a i j : Nat) => dd2 (1 / ((a : ℚ) + 2)) (1 / ((a : ℚ) + 3)) (widths i) (widths j) 1
    Solved (planeProb sch (fun _ => 1 / 8) (fun _ => 1 / 2) (fun _ => 1) 1 3 2 2 true (flatSides given) [0, 1, 2, 3])
      (fun _ => 1 / 8) (planeSol sch 3 2) (fun _ => 2) (fun _ _ _ _ => 2) (fun _ _ _ => 2) := by
  intro sch
  refine ⟨fun o ho a ha => ⟨fun _ _ => 2, fun _ _ => 2, fun _ _ => ⟨rfl, rfl⟩, fun _ _ => ⟨rfl, rfl⟩,
    fun p hp q hq => ?_⟩, fun c hc => ?_, fun side hs hb => ?_, fun side hs ps hb o ho io hio a ha i j hi => ?_,
    fun side hs hb o ho he o' hm a ha i j hi => sub_self _⟩
  · have hc := cell2_lt (posn_lt (o := o) (d := 0) hp) (posn_lt (o := o) (d := 1) hq)
    have e : (1 + 1 / 2 * (if posn 3 o 0 p + posn 2 o 1 q * 3 < 3 * 2 then (2 : ℚ) else 0)) * 1 = 2 := by
      rw [if_pos hc]; norm_num
    have wp : ∀ i, 0 < widths i := fun i => by unfold widths; positivity
    have x := wp (posn 3 o 0 p)
    have y := wp (posn 2 o 1 q)
    have val : ∀ cx cy : ℚ, 0 < cx → 0 < cy → 1 / (1 + cx + cy) * (2 + cx * 2 + cy * 2) = 2 := fun cx cy h1 h2 => by
      have : (1 + cx + cy) ≠ 0 := by positivity
      field_simp
    have v := val (2 * (1 / ((a : ℚ) + 2)) / widths (posn 3 o 0 p)) (2 * (1 / ((a : ℚ) + 3)) / widths (posn 2 o 1 q))
      (by positivity) (by positivity)
    change dd2 _ _ _ _ 1 ((1 + 1 / 2 * (if posn 3 o 0 p + posn 2 o 1 q * 3 < 3 * 2 then (2 : ℚ) else 0)) * 1) (2, 2) = _
    rw [e]
    simp only [dd2]
    rw [v]
    norm_num
  · change (2 : ℚ) + 0 = ∑ o ∈ range 4, ∑ a ∈ range 2, 1 / 8 * 2
    norm_num
  · exact absurd hb (by change flatSides given side ≠ _; unfold flatSides; split <;> simp)
  · have hb' : flatSides given side = .fixed ps := hb
    unfold flatSides at hb'
    split at hb'
    · obtain rfl := BC.fixed.inj hb'
      rfl
    · exact absurd hb' (by simp)

/-- It fails between four mirrors. -/
theorem C149_claim_fails : ¬ C149Claim := by
  intro h
  have k := flat_solved false
  have u := C149_undetermined (fun a => 1 / ((a : ℚ) + 2)) (fun a => 1 / ((a : ℚ) + 3)) (fun _ => 1 / 8) widths widths (fun _ => 1)
    (fun _ => 1) (fun f c => 1 / 2 * f c) (fun _ _ => 1) [] 3 2 2 true (flatSides false) [0, 1, 2, 3] (by decide)
    (fun side _ => by simp [flatSides]) _ _ _ (fun _ => 1) k
  have := h _ _ _ _ _ _ _ _ _ _ _ _ _ _ true [0, 1, 2, 3] (flat_plane false) (by decide) _ _ _ _ _ _ k u 0 (by omega) 0
    (by omega) 0 (by omega) 0 (by norm_num)
  revert this
  decide +kernel

/-- With step characteristics there is exactly one boundary between four mirrors. -/
example : ∃ bd : Bd (Nat → ℝ), let sch := fun (_ i j : Nat) => sc2 Real.exp (1 / 2) (1 / 3) ((i : ℝ) + 1) ((j : ℝ) + 1) 1
    let P := planeProb sch (fun _ => 1 / 4) (fun _ => 1 / 2) (fun _ => 1) 1 3 2 1 true (fun _ => .reflect) [0, 1, 2, 3]
    (∃ phi psi, Solved P (fun _ => 1 / 4) (planeSol sch 3 2) phi bd psi) ∧
    ∀ phi bd' psi, Solved P (fun _ => 1 / 4) (planeSol sch 3 2) phi bd' psi →
      ∀ side < 4, ∀ o < 4, ∀ k < (if side < 2 then 2 else 3), bd' side o 0 k = bd side o 0 k := by
  have hP : Plane (fun _ => 1 / 2) (fun _ => 1 / 3) (fun _ => 1 / 4) (fun i => (i : ℝ) + 1) (fun i => (i : ℝ) + 1) (fun _ => 1)
      (fun _ => 1 / 2) (1 : ℝ) (1 / 2) 3 2 1 (fun _ => .reflect) := {
    hmu := fun a _ => by norm_num
    heta := fun a _ => by norm_num
    weight := fun _ _ => by norm_num
    norm := by norm_num
    hdx := fun i _ => by positivity
    hdy := fun i _ => by positivity
    hsig := fun _ _ => one_pos
    scat := fun _ _ => by rw [abs_of_pos (by norm_num)]; norm_num
    nonneg := by norm_num
    less := by norm_num
    np := fun s _ => by simp
    hx := by omega
    hy := by omega }
  obtain ⟨phi, ⟨bd, psi, k⟩, _⟩ := C128_2D_sc _ _ _ _ _ _ _ (fun _ => 1) _ _ _ _ _ true _ [0, 1, 2, 3] (by decide) hP.hmu
    hP.heta hP.weight hP.norm hP.hdx hP.hdy hP.hsig hP.scat hP.nonneg hP.less hP.np
  exact ⟨bd, ⟨phi, psi, k⟩, fun phi' bd' psi' k' side hs o ho i hi =>
    C149_2D_sc hP _ _ _ (by decide) _ (fun _ _ _ => rfl) k' k side hs o ho 0 Nat.one_pos i hi⟩

/-- A box of two by one by two cells, with any sides that are not periodic. -/
theorem flat_brick (bc : Nat → BC (Nat → Nat → ℚ)) (np : ∀ s < 6, bc s ≠ .periodic) :
    Brick (fun _ => 1 / 2) (fun _ => 1 / 3) (fun _ => 1 / 4) (fun _ => 1 / 8) widths widths widths (fun _ => 1) (fun _ => 1 / 2)
      (1 : ℚ) (1 / 2) 2 1 2 1 bc where
  hmu := fun a _ => by positivity
  heta := fun a _ => by positivity
  hxi := fun a _ => by positivity
  weight := fun _ _ => by norm_num
  norm := by decide +kernel
  hdx := fun i _ => by unfold widths; positivity
  hdy := fun i _ => by unfold widths; positivity
  hdz := fun i _ => by unfold widths; positivity
  hsig := fun _ _ => one_pos
  scat := fun _ _ => by norm_num
  nonneg := by norm_num
  less := by norm_num
  np := np
  hx := by omega
  hy := by omega
  hz := by omega
  fit := by norm_num

/-- It has solutions, so the theorems on boxes speak of something: open or reflecting sides as one likes. -/
example (bc : Nat → BC (Nat → Nat → ℚ)) (np : ∀ s < 6, bc s ≠ .periodic) : ∃ phi bd psi,
    Solved (prob3 (brickSch (fun _ => 1 / 2) (fun _ => 1 / 3) (fun _ => 1 / 4) widths widths widths (fun _ => 1) 2 1) (fun _ => 1 / 8)
      2 1 2 1 true bc [0, 1, 2, 3, 4, 5, 6, 7] (fun f c => 1 / 2 * f c) (fun _ => 1) (fun _ _ => 1) []) (fun _ => 1 / 8)
      (brickSol (brickSch (fun _ => 1 / 2) (fun _ => 1 / 3) (fun _ => 1 / 4) widths widths widths (fun _ => 1) 2 1) 2 1 2)
      phi bd psi := by
  have h := flat_brick bc np
  obtain ⟨phi, ⟨bd, psi, k⟩, _⟩ := C128_3D _ _ _ _ _ _ _ _ _ (fun _ => 1) _ _ _ _ _ _ h.fit true bc
    [0, 1, 2, 3, 4, 5, 6, 7] (by decide) h.hmu h.heta h.hxi h.weight h.norm h.hdx h.hdy h.hdz h.hsig h.scat h.nonneg
    h.less h.np
  exact ⟨phi, bd, psi, k⟩

/-- The pattern of a layer is not zero. -/
example : layered (1 / 3) (1 / 4 : ℚ) widths widths 1 2 (fun i => i) 3 0 1 1 = 1 / 8 := by decide +kernel

/-- The hypotheses of the theorems hold together: given fluxes at the first side, and mirrors elsewhere. -/
example : (∃ side < 4, flatSides true side ≠ .reflect) ∧ (∀ side < 4, flatSides false side = .reflect) :=
  ⟨⟨0, by omega, by simp [flatSides]⟩, fun side _ => by simp [flatSides]⟩

/-- What the four mirrors leave open here is not zero anywhere. -/
example : alternating (1 / 2) (1 / 3 : ℚ) widths widths 3 2 0 0 1 = -1 / 6 ∧
    alternating (1 / 2) (1 / 3 : ℚ) widths widths 3 2 2 0 1 = 1 / 4 := by decide +kernel

/-- Passes between four mirrors never forget the pattern: started with it instead of nothing at the sides, they find the
    same fluxes, and still have it at the sides, after however many passes. -/
example (n : Nat) :
    let P := prob2 (fun a i j => dd2 (1 / ((a : ℚ) + 2)) (1 / ((a : ℚ) + 3)) (widths i) (widths j) 1) (fun _ => 1 / 8) 3 2 2
      true (flatSides false) [0, 1, 2, 3] (fun f c => 1 / 2 * f c) (fun _ => 1) (fun _ _ => 1) []
    let pt : Bd (Nat → ℚ) := fun side o a k => 1 * alternating (1 / ((a : ℚ) + 2)) (1 / ((a : ℚ) + 3)) widths widths 3 2 side o k
    let s : St (Nat → ℚ) ℚ := ⟨fun _ _ _ _ => 0, fun _ => 0, fun _ _ _ => 0⟩
    let s' : St (Nat → ℚ) ℚ := ⟨pt, fun _ => 0, fun _ _ _ => 0⟩
    Shifted P pt (P.siPass^[n] s).bdy (P.siPass^[n] s').bdy ∧ ∀ c < 6, (P.siPass^[n] s').phi c = (P.siPass^[n] s).phi c := by
  intro P pt s s'
  refine C149_kept (w := fun _ => 1 / 8) (sweeps2 _ (fun a i j => (C27_schemes_linear (fun x : ℚ => x) _ _ 0 _ _ 0 _).2.2.2.1)
    _ 3 2 2 true (flatSides false) [0, 1, 2, 3] (by decide) _ _ _ _) (fun side _ => by simp [P, prob2, flatSides])
    (C149_silent (fun a => 1 / ((a : ℚ) + 2)) (fun a => 1 / ((a : ℚ) + 3)) (fun _ => 1 / 8) widths widths (fun _ => 1)
      (fun _ => 1) (fun f c => 1 / 2 * f c) (fun _ _ => 1) [] 3 2 2 true (flatSides false) [0, 1, 2, 3] (by decide)
      (fun side _ => by simp [flatSides]) (fun _ => 1)) s s' (fun side _ o _ a _ i j _ => ?_) (fun _ _ => rfl) n
  exact (zero_add _).symm

end Detran.WGReflect
