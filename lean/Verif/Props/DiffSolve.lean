import Verif.Model.DiffSolve
import Verif.Props.DiffusionGain
import Verif.Lemmas.Gmres
import Mathlib.Analysis.Real.Sqrt

/-!
# C101: the multigroup fixed-source diffusion solver
-/

namespace Detran.Diffusion

open Detran.Matrix Finset

variable {K : Type} [Field K] [LinearOrder K] [IsStrictOrderedRing K]

theorem foldl_addAt (l : List (Nat × K)) : ∀ (Q : Nat → K) (p : Nat),
    l.foldl addAt Q p = Q p + (l.map fun e => if p = e.1 then e.2 else 0).sum := by
  induction l with
  | nil => simp
  | cons e l ih =>
    intro Q p
    rw [List.foldl_cons, ih, List.map_cons, List.sum_cons, ← add_assoc]
    congr 1
    unfold addAt
    split <;> simp

theorem sum_flatMap_map {α β : Type} (l : List α) (f : α → List β) (F : β → K) :
    ((l.flatMap f).map F).sum = (l.map fun a => ((f a).map F).sum).sum := by
  induction l with
  | nil => simp
  | cons a l ih => simp [List.flatMap_cons, ih]

theorem pos_inj {n c c' g g' : Nat} (hc : c < n) (hc' : c' < n) (h : c + g * n = c' + g' * n) :
    c = c' ∧ g = g' := by
  have h1 : (c + g * n) % n = c := by rw [Nat.add_mul_mod_self_right, Nat.mod_eq_of_lt hc]
  have h2 : (c' + g' * n) % n = c' := by rw [Nat.add_mul_mod_self_right, Nat.mod_eq_of_lt hc']
  have e : c = c' := by rw [← h1, ← h2, h]
  refine ⟨e, ?_⟩
  subst e
  have : g * n = g' * n := by omega
  exact Nat.eq_of_mul_eq_mul_right (by omega) this

theorem perCell_sum (n G : Nat) (q : Nat → Nat → K) {g c : Nat} (hg : g < G) (hc : c < n) :
    ((perCell n G q).map fun e => if c + g * n = e.1 then e.2 else 0).sum = q c g := by
  unfold perCell
  rw [sum_flatMap_map, Material.sum_map_range]
  have : ∀ g' ∈ range G, (((List.range n).map fun c => (c + g' * n, q c g')).map
      fun e : Nat × K => if c + g * n = e.1 then e.2 else 0).sum = if g' = g then q c g else 0 := by
    intro g' _
    rw [List.map_map, Material.sum_map_range]
    by_cases h : g' = g
    · subst h
      rw [if_pos rfl]
      rw [Finset.sum_eq_single c]
      · simp
      · intro b hb hne
        rw [mem_range] at hb
        simp only [Function.comp]
        rw [if_neg]
        intro e
        exact hne (pos_inj hc hb e).1.symm
      · intro h; simp at h; omega
    · rw [if_neg h]
      refine Finset.sum_eq_zero fun b hb => ?_
      rw [mem_range] at hb
      simp only [Function.comp]
      rw [if_neg]
      intro e
      exact h (pos_inj hc hb e).2.symm
  rw [Finset.sum_congr rfl this, Finset.sum_ite_eq', if_pos (mem_range.2 hg)]

theorem remdims_eq (d : Nat) (hd : d < 3) : remdims d = other d := by
  interval_cases d <;> rfl

theorem faceCell_eq (M : Grid K) (d : Nat) (hd : d < 3) (s u v : Nat) :
    faceCell M d s u v = M.cellA d s u v := by
  interval_cases d <;> rfl

/-- Specification: the incident partial current at a face of a cell, on the side the face lies on, at the
    cell's position along that side. -/
def FixedSrc.jinAt (S : FixedSrc K) (g c leak : Nat) : K :=
  S.jin leak g (S.L.M.coord c (other (leak / 2)).1) (S.L.M.coord c (other (leak / 2)).2)

/-- Specification: the outgoing partial current the solver stores there. -/
def FixedSrc.joutAt (S : FixedSrc K) (x : Nat → K) (g c leak : Nat) : K :=
  S.jout x leak g (S.L.M.coord c (other (leak / 2)).1) (S.L.M.coord c (other (leak / 2)).2)

/-- Specification: what the user supplied as volume source in a cell and group: all external sources, and
    the fission source unless fission is in the operator. -/
def FixedSrc.given (S : FixedSrc K) (g c : Nat) : K :=
  (S.ext.map fun o => match o with | none => 0 | some q => q c g).sum
    + match S.fsrc with
      | none => 0
      | some f => if S.L.fission then 0 else f g c

theorem volume_sum (S : FixedSrc K) {g c : Nat} (hg : g < S.L.mat.G) (hc : c < S.L.M.size) :
    (S.volume.map fun e => if c + g * S.L.M.size = e.1 then e.2 else 0).sum = S.given g c := by
  unfold FixedSrc.volume FixedSrc.given
  rw [List.map_append, List.sum_append, sum_flatMap_map]
  congr 1
  · congr 1
    refine List.map_congr_left fun o _ => ?_
    cases o with
    | none => rfl
    | some q => exact perCell_sum _ _ q hg hc
  · cases S.fsrc with
    | none => rfl
    | some f =>
      simp only
      split
      · rfl
      · exact perCell_sum _ _ (fun c g => f g c) hg hc

theorem onBoundary_eq (M : Grid K) (c d dir : Nat) (hdir : dir < 2) :
    M.onBoundary c (2 * d + dir) = decide (M.coord c d = bound M d dir) := by
  interval_cases dir
  · rw [Nat.add_zero, boundary_low]; rfl
  · rw [boundary_high]; rfl

theorem surface_sum (S : FixedSrc K) (hdim : S.L.M.dim ≤ 3) {g c : Nat} (hg : g < S.L.mat.G)
    (hc : c < S.L.M.size) :
    (S.surface.map fun e => if c + g * S.L.M.size = e.1 then e.2 else 0).sum
      = ∑ d ∈ range S.L.M.dim, ∑ dir ∈ range 2, if S.L.M.onBoundary c (2 * d + dir) then
          8 * S.L.dc g c * S.jinAt g c (2 * d + dir)
            / ((4 * S.L.dc g c + S.L.M.width c d) * S.L.M.width c d)
        else 0 := by
  unfold FixedSrc.surface
  rw [sum_flatMap_map, Material.sum_map_range]
  refine Finset.sum_congr rfl fun d hd => ?_
  rw [mem_range] at hd
  have hd3 : d < 3 := by omega
  rw [sum_flatMap_map, Material.sum_map_range]
  refine Finset.sum_congr rfl fun dir hdir => ?_
  rw [mem_range] at hdir
  rw [remdims_eq d hd3, onBoundary_eq _ _ _ _ hdir]
  have hpos : 0 < S.L.M.size := by omega
  have hbd : bound S.L.M d dir < S.L.M.count d := by
    have := coord_lt S.L.M hpos d
    unfold bound
    split <;> omega
  have h2 : (2 * d + dir) / 2 = d := by omega
  rw [sum_flatMap_map, Material.sum_map_range]
  have key : ∀ u ∈ range (S.L.M.count (other d).1), ∀ v ∈ range (S.L.M.count (other d).2),
      ∀ g' ∈ range S.L.mat.G, ∀ val : K,
      (if c + g * S.L.M.size = faceCell S.L.M d (bound S.L.M d dir) u v + g' * S.L.M.size then val else 0)
      = if u = S.L.M.coord c (other d).1 then if v = S.L.M.coord c (other d).2 then if g' = g then
          if S.L.M.coord c d = bound S.L.M d dir then val else 0 else 0 else 0 else 0 := by
    intro u hu v hv g' hg' val
    rw [mem_range] at hu hv
    rw [faceCell_eq _ _ hd3]
    obtain ⟨c1, c2, c3, c4⟩ := cellA_coord S.L.M d hd3 hbd hu hv
    by_cases e : c + g * S.L.M.size = S.L.M.cellA d (bound S.L.M d dir) u v + g' * S.L.M.size
    · obtain ⟨e1, e2⟩ := pos_inj hc c4 e
      rw [if_pos e]
      rw [← e1] at c1 c2 c3
      rw [if_pos c2.symm, if_pos c3.symm, if_pos e2.symm, if_pos c1]
    · rw [if_neg e]
      by_cases h1 : u = S.L.M.coord c (other d).1
      · by_cases h2 : v = S.L.M.coord c (other d).2
        · by_cases h3 : g' = g
          · by_cases h4 : S.L.M.coord c d = bound S.L.M d dir
            · exfalso
              apply e
              rw [h1, h2, h3, ← h4, cellA_self S.L.M d hd3]
            · rw [if_pos h1, if_pos h2, if_pos h3, if_neg h4]
          · rw [if_pos h1, if_pos h2, if_neg h3]
        · rw [if_pos h1, if_neg h2]
      · rw [if_neg h1]
  have hu0 : S.L.M.coord c (other d).1 < S.L.M.count (other d).1 := coord_lt _ hc _
  have hv0 : S.L.M.coord c (other d).2 < S.L.M.count (other d).2 := coord_lt _ hc _
  have step : ∀ u ∈ range (S.L.M.count (other d).1),
      (((List.range (S.L.M.count (other d).2)).flatMap fun v => (List.range S.L.mat.G).map fun g =>
          let cell := faceCell S.L.M d (bound S.L.M d dir) u v
          let W := S.L.M.h d (bound S.L.M d dir)
          let DC := S.L.dc g cell
          (cell + g * S.L.M.size, (8 * DC * S.jin (2 * d + dir) g u v) / ((4 * DC + W) * W))).map
        fun e => if c + g * S.L.M.size = e.1 then e.2 else 0).sum
      = if u = S.L.M.coord c (other d).1 then
          (if S.L.M.coord c d = bound S.L.M d dir then
            8 * S.L.dc g c * S.jinAt g c (2 * d + dir)
            / ((4 * S.L.dc g c + S.L.M.width c d) * S.L.M.width c d) else 0)
        else 0 := by
    intro u hu
    rw [sum_flatMap_map, Material.sum_map_range]
    have inner : ∀ v ∈ range (S.L.M.count (other d).2),
        (((List.range S.L.mat.G).map fun g =>
          let cell := faceCell S.L.M d (bound S.L.M d dir) u v
          let W := S.L.M.h d (bound S.L.M d dir)
          let DC := S.L.dc g cell
          (cell + g * S.L.M.size, (8 * DC * S.jin (2 * d + dir) g u v) / ((4 * DC + W) * W))).map
            fun e => if c + g * S.L.M.size = e.1 then e.2 else 0).sum
        = if v = S.L.M.coord c (other d).2 then (if u = S.L.M.coord c (other d).1 then
          (if S.L.M.coord c d = bound S.L.M d dir then
            8 * S.L.dc g c * S.jinAt g c (2 * d + dir)
            / ((4 * S.L.dc g c + S.L.M.width c d) * S.L.M.width c d) else 0)
          else 0) else 0 := by
      intro v hv
      rw [List.map_map, Material.sum_map_range]
      simp only [Function.comp]
      rw [Finset.sum_congr rfl fun g' hg' => key u hu v hv g' hg' _]
      by_cases h1 : u = S.L.M.coord c (other d).1
      · by_cases h2' : v = S.L.M.coord c (other d).2
        · simp only [h1, h2', if_true]
          rw [Finset.sum_ite_eq', if_pos (mem_range.2 hg)]
          by_cases h4 : S.L.M.coord c d = bound S.L.M d dir
          · rw [if_pos h4, if_pos h4, faceCell_eq _ _ hd3, ← h4, cellA_self _ _ hd3]
            unfold FixedSrc.jinAt Grid.width
            rw [h2]
          · rw [if_neg h4, if_neg h4]
        · simp [h2']
      · simp [h1]
    rw [Finset.sum_congr rfl inner, Finset.sum_ite_eq', if_pos (mem_range.2 hv0)]
  rw [Finset.sum_congr rfl step, Finset.sum_ite_eq', if_pos (mem_range.2 hu0)]
  by_cases h4 : S.L.M.coord c d = bound S.L.M d dir
  · simp [h4]
  · simp [h4]

theorem sum_sides (n : Nat) (F : Nat → K) :
    ∑ leak ∈ range (2 * n), F leak = ∑ d ∈ range n, ∑ dir ∈ range 2, F (2 * d + dir) := by
  induction n with
  | zero => simp
  | succ n ih =>
    rw [Nat.mul_succ, Finset.sum_range_succ, Finset.sum_range_succ, ih, Finset.sum_range_succ (n := n)]
    simp [Finset.sum_range_succ]
    ring

theorem fillStep_row (x : Nat → K) (g n : Nat) (s : (Nat → Nat → K) × Nat) :
    ((List.range n).foldl (fillStep x g) s).2 = s.2 + n ∧
    (∀ c, c < n → ((List.range n).foldl (fillStep x g) s).1 g c = x (s.2 + c)) ∧
    ∀ g' c, (g' ≠ g ∨ n ≤ c) → ((List.range n).foldl (fillStep x g) s).1 g' c = s.1 g' c := by
  induction n with
  | zero => simp
  | succ n ih =>
    obtain ⟨h1, h2, h3⟩ := ih
    rw [List.range_succ, List.foldl_append]
    simp only [List.foldl_cons, List.foldl_nil]
    refine ⟨by simp only [fillStep, h1]; omega, ?_, ?_⟩
    · intro c hc
      rcases Nat.lt_succ_iff_lt_or_eq.1 hc with h | rfl
      · simp only [fillStep, true_and]
        rw [if_neg (by omega), h2 c h]
      · simp only [fillStep, h1, and_self, if_true]
    · intro g' c h
      simp only [fillStep]
      rw [if_neg (by omega), h3 g' c (by omega)]

/-- **C101 (flux).** After a solve the flux of the state is the solution of the linear system: the entry of a
    group and cell is the unknown that the balance theorems below speak about; nothing else is written. -/
theorem C101_flux (G n : Nat) (x : Nat → K) (phi : Nat → Nat → K) :
    (∀ g < G, ∀ c < n, fillState G n x phi g c = x (c + g * n)) ∧
    ∀ g c, (G ≤ g ∨ n ≤ c) → fillState G n x phi g c = phi g c := by
  have key : ((List.range G).foldl (fun s g => (List.range n).foldl (fillStep x g) s) (phi, 0)).2 = G * n ∧
      (∀ g < G, ∀ c < n, fillState G n x phi g c = x (c + g * n)) ∧
      ∀ g c, (G ≤ g ∨ n ≤ c) → fillState G n x phi g c = phi g c := by
    unfold fillState
    induction G with
    | zero => simp
    | succ G ih =>
      obtain ⟨h1, h2, h3⟩ := ih
      rw [List.range_succ, List.foldl_append]
      simp only [List.foldl_cons, List.foldl_nil]
      obtain ⟨k1, k2, k3⟩ := fillStep_row x G n
        ((List.range G).foldl (fun s g => (List.range n).foldl (fillStep x g) s) (phi, 0))
      refine ⟨by rw [k1, h1, Nat.succ_mul], ?_, ?_⟩
      · intro g hg c hc
        rcases Nat.lt_succ_iff_lt_or_eq.1 hg with h | rfl
        · rw [k3 g c (Or.inl (by omega)), h2 g h c hc]
        · rw [k2 c hc, h1, Nat.add_comm]
      · intro g c h
        rw [k3 g c (by omega), h3 g c (by omega)]
  exact key.2

example : fillState 2 3 (fun i => (i : ℚ)) (fun _ _ => 7) 1 2 = 5 := by decide +kernel

/-- C101: the right hand side.  In every cell and group it is the sum of all given volume sources and, for
    each face of the cell that lies on a side of the mesh, the source an incident partial current makes:
    `8 D J / ((4 D + h) h)` with the current of that side, group and position. -/
theorem C101_source (S : FixedSrc K) (hdim : S.L.M.dim ≤ 3) {g c : Nat} (hg : g < S.L.mat.G)
    (hc : c < S.L.M.size) :
    S.rhs (c + g * S.L.M.size) = S.given g c +
      ∑ leak ∈ range (2 * S.L.M.dim), if S.L.M.onBoundary c leak then
        8 * S.L.dc g c * S.jinAt g c leak
          / ((4 * S.L.dc g c + S.L.M.width c (leak / 2)) * S.L.M.width c (leak / 2)) else 0 := by
  unfold FixedSrc.rhs
  rw [foldl_addAt, List.map_append, List.sum_append, volume_sum S hg hc, surface_sum S hdim hg hc, zero_add]
  congr 1
  rw [sum_sides]
  refine Finset.sum_congr rfl fun d _ => Finset.sum_congr rfl fun dir hdir => ?_
  rw [mem_range] at hdir
  rw [show (2 * d + dir) / 2 = d by omega]

/-! ## Balance -/

/-- Specification: the partial currents at a boundary face: `J` is the net current out of the cell, the
    face flux `fs` obeys Fick's law over the half cell, and the partial currents are `fs/4 ± J/2`. -/
def Loss.IsPartial (D : Loss K) (g : Nat) (phi : K) (c leak : Nat) (jin jout J : K) : Prop :=
  ∃ fs, J = D.dc g c * (phi - fs) / (D.M.width c (leak / 2) / 2) ∧
    jin = fs / 4 - J / 2 ∧ jout = fs / 4 + J / 2

theorem joutAt_eq (S : FixedSrc K) (x : Nat → K) {g c leak : Nat} (hc : c < S.L.M.size) (hl : leak < 6)
    (hb : S.L.M.onBoundary c leak = true) :
    S.joutAt x g c leak = (2 * S.L.dc g c * x (c + g * S.L.M.size)
      + (S.L.M.width c (leak / 2) - 4 * S.L.dc g c) * S.jinAt g c leak)
        / (4 * S.L.dc g c + S.L.M.width c (leak / 2)) := by
  have hd3 : leak / 2 < 3 := by omega
  have hb' : S.L.M.coord c (leak / 2) = bound S.L.M (leak / 2) (leak % 2) := by
    have := onBoundary_eq S.L.M c (leak / 2) (leak % 2) (Nat.mod_lt _ (by omega))
    rw [Nat.div_add_mod, hb] at this
    exact of_decide_eq_true this.symm
  unfold FixedSrc.joutAt FixedSrc.jout FixedSrc.jinAt
  simp only
  rw [faceCell_eq _ _ hd3, ← hb', cellA_self _ _ hd3]
  rfl

/-- C101: the stored outgoing current and the given incident current at a boundary face are the partial
    currents of a diffusion solution in that cell: with them Fick's law gives their difference. -/
theorem C101_partial_currents (S : FixedSrc K) (hp : S.L.Pos) (x : Nat → K) {g c leak : Nat}
    (hc : c < S.L.M.size) (hl : leak < 6) (hb : S.L.M.onBoundary c leak = true) :
    S.L.IsPartial g (x (c + g * S.L.M.size)) c leak (S.jinAt g c leak) (S.joutAt x g c leak)
      (S.joutAt x g c leak - S.jinAt g c leak) := by
  rw [joutAt_eq S x hc hl hb]
  have hd : 0 < S.L.dc g c := hp.dc _ _
  have hh : 0 < S.L.M.width c (leak / 2) := hp.h _ _
  unfold Loss.IsPartial
  generalize S.L.dc g c = d at *
  generalize S.L.M.width c (leak / 2) = h at *
  generalize x (c + g * S.L.M.size) = phi
  generalize S.jinAt g c leak = j
  have hden : 4 * d + h ≠ 0 := by positivity
  have hh' := hh.ne'
  refine ⟨2 * ((2 * d * phi + (h - 4 * d) * j) / (4 * d + h) + j), ?_, ?_, ?_⟩
  · field_simp
    ring
  · ring
  · ring

/-- Specification: the net current out of cell `c` through face `leak` in the solution `x`: between cells
    the diffusion current, on an open side the difference of the partial currents stored with the
    boundary, on a closed side (reflecting, or along an axis the mesh does not have) nothing. -/
def FixedSrc.netCurrent (S : FixedSrc K) (x : Nat → K) (g c leak : Nat) : K :=
  if S.L.M.onBoundary c leak then
    (if S.L.al leak = 1 then 0 else S.joutAt x g c leak - S.jinAt g c leak)
  else S.L.faceTerm g (fun c => x (c + g * S.L.M.size)) c leak

/-- Admissible problem: the operator covers all groups, every side of the mesh is open (albedo zero) or
    reflecting with no incident current, and axes the mesh does not have are closed. -/
structure FixedSrc.OK (S : FixedSrc K) : Prop where
  op : S.L.OK
  full : if S.L.adjoint then S.L.cutoff + 1 = S.L.mat.G else S.L.cutoff = 0
  side : ∀ leak < 2 * S.L.M.dim, S.L.al leak = 0 ∨
    (S.L.al leak = 1 ∧ ∀ g u v, S.jin leak g u v = 0)
  flat : ∀ leak, 2 * S.L.M.dim ≤ leak → leak < 6 → S.L.al leak = 1

theorem FixedSrc.OK.active {S : FixedSrc K} (ok : S.OK) : S.L.active = range S.L.mat.G := by
  have h := ok.full
  unfold Loss.active
  split
  · rename_i ha; simp only [ha, if_true] at h; rw [h]
  · rename_i ha; simp only [ha] at h; rw [h]; ext; simp

theorem FixedSrc.OK.pos {S : FixedSrc K} (ok : S.OK) (g c : Nat) : S.L.pos g c = c + g * S.L.M.size := by
  have h := ok.full
  unfold Loss.pos
  split
  · rfl
  · rename_i ha; simp only [ha] at h; rw [h]; simp

theorem net_eq (S : FixedSrc K) (ok : S.OK) (hp : S.L.Pos) (x : Nat → K) {g c leak : Nat}
    (hc : c < S.L.M.size) (hl : leak < 6) :
    S.L.faceTerm g (fun c => x (c + g * S.L.M.size)) c leak / S.L.M.width c (leak / 2)
      - (if leak < 2 * S.L.M.dim then (if S.L.M.onBoundary c leak then
        8 * S.L.dc g c * S.jinAt g c leak
          / ((4 * S.L.dc g c + S.L.M.width c (leak / 2)) * S.L.M.width c (leak / 2)) else 0) else 0)
      = S.netCurrent x g c leak / S.L.M.width c (leak / 2) := by
  have hd : 0 < S.L.dc g c := hp.dc _ _
  have hh : 0 < S.L.M.width c (leak / 2) := hp.h _ _
  have hh' := hh.ne'
  unfold FixedSrc.netCurrent
  by_cases hb : S.L.M.onBoundary c leak = true
  · simp only [hb, if_true]
    by_cases h2 : leak < 2 * S.L.M.dim
    · simp only [h2, if_true]
      rcases ok.side leak h2 with ha | ⟨ha, hj⟩
      · rw [ha, if_neg (by simp), joutAt_eq S x hc hl hb]
        unfold Loss.faceTerm Loss.dtilde
        simp only [hb, if_true, ha]
        unfold dBoundary
        generalize S.L.dc g c = d at *
        generalize S.L.M.width c (leak / 2) = h at *
        have hden : 4 * d + h ≠ 0 := by positivity
        have hden' : 4 * d * (1 + 0) + (1 - 0) * h ≠ 0 := by simpa using hden
        rw [div_mul_eq_mul_div, div_div, div_sub' hden, div_div, ← sub_eq_zero]
        simp only [add_zero, sub_zero, mul_one, one_mul]
        field_simp
        ring
      · rw [if_pos ha]
        have : S.jinAt g c leak = 0 := hj _ _ _
        rw [this]
        simp [Loss.faceTerm, Loss.dtilde, hb, dBoundary, ha]
    · simp only [h2, if_false, sub_zero]
      rw [if_pos (ok.flat leak (by omega) hl)]
      simp [Loss.faceTerm, Loss.dtilde, hb, dBoundary, ok.flat leak (by omega) hl]
  · simp only [hb, if_false, sub_zero, Bool.false_eq_true, ite_self]

/-- C101: balance in every cell.  If `x` solves the system the solver builds, then in every cell and group
    the net currents through the faces over the widths plus removal less scattering (less fission over `k`
    if fission is in the operator) equal the given volume source. -/
theorem C101_cell_balance (S : FixedSrc K) (ok : S.OK) (hp : S.L.Pos)
    (srt : List (Trip K) → List (Trip K)) (hs : IsSort srt) (C : CSR K) (bs : List Bool)
    (hC : S.L.sys.make srt = .ok (some C, bs)) (x : Nat → K)
    (hx : ∀ p < S.L.mat.G * S.L.M.size, C.multiply x p = S.rhs p) {g c : Nat} (hg : g < S.L.mat.G)
    (hc : c < S.L.M.size) :
    (∑ leak ∈ range 6, S.netCurrent x g c leak / S.L.M.width c (leak / 2)) + S.L.local x g c
      = S.given g c := by
  obtain ⟨C', h1, _, _, h4⟩ := rows S.L ok.op srt hs
  rw [h1, Out.ok.injEq, Prod.mk.injEq, Option.some.injEq] at hC
  obtain ⟨rfl, _⟩ := hC
  have hlt : c + g * S.L.M.size < S.L.mat.G * S.L.M.size := by
    calc c + g * S.L.M.size < (g + 1) * S.L.M.size := by rw [Nat.add_mul]; omega
      _ ≤ S.L.mat.G * S.L.M.size := Nat.mul_le_mul_right _ hg
  have e1 := h4 x g (by rw [ok.active, mem_range]; exact hg) c hc
  rw [ok.pos] at e1
  have e2 := C101_source S ok.op.grid.dim_le hg hc
  rw [hx _ hlt] at e1
  simp only [ok.pos] at e1
  have e3 : ∑ leak ∈ range (2 * S.L.M.dim), (if S.L.M.onBoundary c leak then
        8 * S.L.dc g c * S.jinAt g c leak
          / ((4 * S.L.dc g c + S.L.M.width c (leak / 2)) * S.L.M.width c (leak / 2)) else 0)
      = ∑ leak ∈ range 6, (if leak < 2 * S.L.M.dim then (if S.L.M.onBoundary c leak then
        8 * S.L.dc g c * S.jinAt g c leak
          / ((4 * S.L.dc g c + S.L.M.width c (leak / 2)) * S.L.M.width c (leak / 2)) else 0) else 0) := by
    rw [← Finset.sum_filter (s := range 6) (fun leak => leak < 2 * S.L.M.dim)]
    refine Finset.sum_congr ?_ fun _ _ => rfl
    have := ok.op.grid.dim_le
    ext l
    simp only [mem_range, mem_filter]
    omega
  rw [e3] at e2
  have e4 : ∑ leak ∈ range 6, S.netCurrent x g c leak / S.L.M.width c (leak / 2)
      = ∑ leak ∈ range 6, (S.L.faceTerm g (fun c => x (c + g * S.L.M.size)) c leak / S.L.M.width c (leak / 2)
      - (if leak < 2 * S.L.M.dim then (if S.L.M.onBoundary c leak then
        8 * S.L.dc g c * S.jinAt g c leak
          / ((4 * S.L.dc g c + S.L.M.width c (leak / 2)) * S.L.M.width c (leak / 2)) else 0) else 0)) :=
    Finset.sum_congr rfl fun l hl => (net_eq S ok hp x hc (mem_range.1 hl)).symm
  rw [e4, Finset.sum_sub_distrib]
  linear_combination e2 - e1

/-- Net outflow of particles through the sides of the mesh: difference of the stored partial currents
    times face area, over the open sides. -/
def FixedSrc.leakage (S : FixedSrc K) (x : Nat → K) (g : Nat) : K :=
  ∑ c ∈ range S.L.M.size, ∑ leak ∈ range (2 * S.L.M.dim),
    if S.L.M.onBoundary c leak = true ∧ S.L.al leak ≠ 1 then
      (S.joutAt x g c leak - S.jinAt g c leak) * (S.L.M.volume c / S.L.M.width c (leak / 2)) else 0

theorem interior_cancel (D : Loss K) (hh : ∀ a i, D.M.h a i ≠ 0) (hpos : 0 < D.M.size) (g : Nat)
    (phi : Nat → K) :
    ∑ c ∈ range D.M.size, D.M.volume c * ∑ leak ∈ range 6,
      D.faceTerm g phi c leak / D.M.width c (leak / 2)
    = ∑ c ∈ range D.M.size, ∑ leak ∈ range 6, if D.M.onBoundary c leak then
        D.faceTerm g phi c leak * (D.M.volume c / D.M.width c (leak / 2)) else 0 := by
  have h5 := leak_form D hh hpos g phi (fun _ => 1)
  rw [form_one D hh hpos g 0 (by omega), form_one D hh hpos g 1 (by omega), form_one D hh hpos g 2 (by omega),
    ← Finset.sum_add_distrib, ← Finset.sum_add_distrib] at h5
  have h6 : ∀ c, D.M.volume c * 1 = D.M.volume c := fun c => mul_one _
  simp only [h6] at h5
  rw [h5]
  refine Finset.sum_congr rfl fun c _ => ?_
  rw [← Material.sum_map_range, range6]
  norm_num only
  ring

theorem sides_sum (S : FixedSrc K) (hd : S.L.M.dim ≤ 3) (F : Nat → K) (h : ∀ l, 2 * S.L.M.dim ≤ l → l < 6 → F l = 0) :
    ∑ l ∈ range 6, F l = ∑ l ∈ range (2 * S.L.M.dim), F l := by
  symm
  refine Finset.sum_subset (fun l hl => ?_) (fun l h6 hl => ?_)
  · simp only [mem_range] at *; omega
  · exact h l (by simpa using hl) (mem_range.1 h6)

/-- C101: balance of the whole mesh.  If `x` solves the system, then in every group the net outflow given by
    the stored boundary currents plus the removal less scattering (less fission in the operator) integrated
    over the mesh is the integrated given source. -/
theorem C101_global_balance (S : FixedSrc K) (ok : S.OK) (hp : S.L.Pos)
    (srt : List (Trip K) → List (Trip K)) (hs : IsSort srt) (C : CSR K) (bs : List Bool)
    (hC : S.L.sys.make srt = .ok (some C, bs)) (x : Nat → K)
    (hx : ∀ p < S.L.mat.G * S.L.M.size, C.multiply x p = S.rhs p) {g : Nat} (hg : g < S.L.mat.G) :
    S.leakage x g + ∑ c ∈ range S.L.M.size, S.L.M.volume c * S.L.local x g c
      = ∑ c ∈ range S.L.M.size, S.L.M.volume c * S.given g c := by
  have hh : ∀ a i, S.L.M.h a i ≠ 0 := fun a i => (hp.h a i).ne'
  have hcell := fun c (hc : c ∈ range S.L.M.size) =>
    C101_cell_balance S ok hp srt hs C bs hC x hx hg (mem_range.1 hc)
  have hsum : ∑ c ∈ range S.L.M.size, S.L.M.volume c * S.given g c
      = ∑ c ∈ range S.L.M.size, S.L.M.volume c * (∑ leak ∈ range 6, S.netCurrent x g c leak
          / S.L.M.width c (leak / 2)) + ∑ c ∈ range S.L.M.size, S.L.M.volume c * S.L.local x g c := by
    rw [← Finset.sum_add_distrib]
    exact Finset.sum_congr rfl fun c hc => by rw [← hcell c hc]; ring
  rw [hsum]
  congr 1
  rcases Nat.eq_zero_or_pos S.L.M.size with h0 | hpos
  · simp [FixedSrc.leakage, h0]
  have hcan := interior_cancel S.L hh hpos g (fun c => x (c + g * S.L.M.size))
  -- net current = face term minus a boundary part
  have hsplit : ∀ c ∈ range S.L.M.size, S.L.M.volume c * (∑ leak ∈ range 6, S.netCurrent x g c leak
        / S.L.M.width c (leak / 2))
      = S.L.M.volume c * (∑ leak ∈ range 6, S.L.faceTerm g (fun c => x (c + g * S.L.M.size)) c leak
          / S.L.M.width c (leak / 2))
        + ((∑ leak ∈ range (2 * S.L.M.dim), if S.L.M.onBoundary c leak = true ∧ S.L.al leak ≠ 1 then
            (S.joutAt x g c leak - S.jinAt g c leak) * (S.L.M.volume c / S.L.M.width c (leak / 2)) else 0)
          - ∑ leak ∈ range 6, if S.L.M.onBoundary c leak then
            S.L.faceTerm g (fun c => x (c + g * S.L.M.size)) c leak
              * (S.L.M.volume c / S.L.M.width c (leak / 2)) else 0) := by
    intro c hc
    rw [← sides_sum S ok.op.grid.dim_le _ (fun l hl h6 => by
      rw [if_neg]; rintro ⟨_, h⟩; exact h (ok.flat l hl h6)), ← Finset.sum_sub_distrib, Finset.mul_sum,
      Finset.mul_sum, ← Finset.sum_add_distrib]
    refine Finset.sum_congr rfl fun l _ => ?_
    unfold FixedSrc.netCurrent
    by_cases hb : S.L.M.onBoundary c l = true
    · by_cases ha : S.L.al l = 1
      · simp [hb, ha, Loss.faceTerm, Loss.dtilde, dBoundary]
      · simp only [hb, ha, if_true, if_false, ne_eq, not_false_eq_true, and_true]
        ring
    · simp [hb]
  rw [Finset.sum_congr rfl hsplit, Finset.sum_add_distrib, hcan, Finset.sum_sub_distrib]
  unfold FixedSrc.leakage
  ring

/-- The full claim about the stored boundary currents: on every side without incident current, open or
    reflecting, their difference is the net current of the solution. -/
def C101Claim (K : Type) [Field K] [LinearOrder K] [IsStrictOrderedRing K] : Prop :=
  ∀ (S : FixedSrc K), S.OK → S.L.Pos → ∀ (x : Nat → K) (g c leak : Nat), g < S.L.mat.G →
    c < S.L.M.size → leak < 2 * S.L.M.dim → S.L.M.onBoundary c leak = true → S.jinAt g c leak = 0 →
    S.L.IsCurrent g (fun c => x (c + g * S.L.M.size)) c leak (S.joutAt x g c leak - S.jinAt g c leak)

/-- C101: on an open side with no incident current the stored currents give the net current; what is
    missing for the full claim is the reflecting side. -/
theorem C101_boundary_partial (S : FixedSrc K) (hp : S.L.Pos) (x : Nat → K) {g c leak : Nat}
    (hc : c < S.L.M.size) (hl : leak < 6) (hb : S.L.M.onBoundary c leak = true) (ha : S.L.al leak = 0)
    (hj : S.jinAt g c leak = 0) :
    S.L.IsCurrent g (fun c => x (c + g * S.L.M.size)) c leak (S.joutAt x g c leak - S.jinAt g c leak) := by
  obtain ⟨fs, h1, h2, h3⟩ := C101_partial_currents S hp x (g := g) hc hl hb
  refine ⟨fs, h1, ?_⟩
  rw [if_pos hb, ha, zero_mul, ← h2, hj]

/-- C101: on a reflecting side the stored outgoing current is `2 D φ / (4 D + h)` although nothing leaves:
    positive wherever the flux is. -/
theorem C101_reflect_outflow (S : FixedSrc K) (hp : S.L.Pos) (x : Nat → K) {g c leak : Nat}
    (hc : c < S.L.M.size) (hl : leak < 6) (hb : S.L.M.onBoundary c leak = true)
    (ha : S.L.al leak = 1) (hj : S.jinAt g c leak = 0) (hx : 0 < x (c + g * S.L.M.size)) :
    0 < S.joutAt x g c leak ∧
    ∀ J, S.L.IsCurrent g (fun c => x (c + g * S.L.M.size)) c leak J → J = 0 := by
  refine ⟨?_, fun J hJ => C50_reflect S.L hp g _ c leak hb ha J hJ⟩
  rw [joutAt_eq S x hc hl hb, hj, mul_zero, add_zero]
  have hd : 0 < S.L.dc g c := hp.dc _ _
  have hh : 0 < S.L.M.width c (leak / 2) := hp.h _ _
  positivity

/-! ## Rebuilding the operator for a new eigenvalue -/

/-- C101: in forward mode a new `k` gives the operator of the constructor with that `k`, and an unchanged
    one keeps it: every `solve(k)` uses the full energy range and divides fission by `k`. -/
theorem C101_refresh [DecidableEq K] (L : Loss K) (ha : L.adjoint = false) (k : K) :
    FixedSrc.operator (FixedSrc.init L) k = { FixedSrc.init L with keff := k } ∧
    ∀ k', FixedSrc.operator (FixedSrc.operator (FixedSrc.init L) k') k
      = { FixedSrc.init L with keff := k } := by
  have h : ∀ k' k, FixedSrc.operator { FixedSrc.init L with keff := k' } k
      = { FixedSrc.init L with keff := k } := by
    intro k' k
    unfold FixedSrc.operator
    split
    · simp [FixedSrc.refresh, FixedSrc.init, ha]
    · rename_i e
      simp only [ne_eq, not_not] at e
      rw [e]
  have h1 : FixedSrc.operator (FixedSrc.init L) k = { FixedSrc.init L with keff := k } := h 1 k
  refine ⟨h1, fun k' => ?_⟩
  rw [show FixedSrc.operator (FixedSrc.init L) k' = { FixedSrc.init L with keff := k' } from h 1 k']
  exact h k' k

/-- The full claim: rebuilding for a new `k` leaves the number of unknowns of the operator as it was. -/
def C101RefreshClaim (K : Type) [Field K] [DecidableEq K] : Prop :=
  ∀ (L : Loss K) (k : K), (FixedSrc.operator (FixedSrc.init L) k).sys.m = (FixedSrc.init L).sys.m

/-- C101: in adjoint mode the operator rebuilt for a new `k` covers group zero alone, so it has as many
    unknowns as the mesh has cells while the vectors keep one value per cell and group. -/
theorem C101_refresh_adjoint [DecidableEq K] (L : Loss K) (ha : L.adjoint = true) (hG : 0 < L.mat.G) (k : K)
    (hk : k ≠ 1) :
    (FixedSrc.operator (FixedSrc.init L) k).groups = [0] ∧
    (FixedSrc.operator (FixedSrc.init L) k).sys.m = L.M.size ∧
    (FixedSrc.init L).sys.m = L.mat.G * L.M.size := by
  have e : FixedSrc.operator (FixedSrc.init L) k = FixedSrc.refresh (FixedSrc.init L) k := by
    unfold FixedSrc.operator
    rw [if_pos]
    exact fun h => hk h.symm
  have g0 : (FixedSrc.operator (FixedSrc.init L) k).groups = [0] := by
    rw [e]
    unfold Loss.groups FixedSrc.refresh FixedSrc.init
    simp only [ha, if_true]
    decide
  refine ⟨g0, ?_, ?_⟩
  · show (FixedSrc.operator (FixedSrc.init L) k).groups.length * _ = _
    rw [g0, e]
    simp [FixedSrc.refresh, FixedSrc.init, Loss.sys]
  · show (FixedSrc.init L).groups.length * L.M.size = _
    congr 1
    unfold Loss.groups FixedSrc.init
    simp only [ha, if_true, List.length_map]
    unfold Util.range
    simp only [Bool.false_eq_true, if_false]
    rw [Util.rangeLoop_length]
    omega

/-! ## The stored cell current -/

/-- Specification: the component along an axis of the current at the centre of a cell, the mean of the
    currents through its two faces. -/
def Loss.centreCurrent (J : Nat → K) (axis : Nat) : K := (J (2 * axis + 1) - J (2 * axis)) / 2

/-- The full claim: the value stored for a cell is the magnitude of the current at its centre. -/
def C101CurrentClaim (K : Type) [Field K] [LinearOrder K] [IsStrictOrderedRing K] : Prop :=
  ∀ (D : Loss K), D.OK → D.Pos → ∀ (sqrt : K → K), (∀ a, 0 ≤ a → 0 ≤ sqrt a ∧ sqrt a * sqrt a = a) →
    ∀ (phi : Nat → Nat → K) (g c : Nat), g < D.mat.G → c < D.M.size → ∀ J : Nat → K,
    (∀ leak < 6, D.IsCurrent g (phi g) c leak (J leak)) →
    D.storedCurrent sqrt phi g c * D.storedCurrent sqrt phi g c
      = Loss.centreCurrent J 0 * Loss.centreCurrent J 0 + Loss.centreCurrent J 1 * Loss.centreCurrent J 1
        + Loss.centreCurrent J 2 * Loss.centreCurrent J 2

theorem stored_low (D : Loss K) (phi : Nat → Nat → K) (g c leak : Nat) (hl : leak % 2 = 0)
    (hb : D.M.onBoundary c leak = false) : D.storedFace phi g c leak = 0 := by
  simp [Loss.storedFace, hb, hl]

theorem stored_high (D : Loss K) (phi : Nat → Nat → K) (g c leak : Nat) (hl : leak % 2 = 1)
    (hb : D.M.onBoundary c leak = false) : D.storedFace phi g c leak = - D.faceTerm g (phi g) c leak := by
  simp [Loss.storedFace, Loss.faceTerm, hb, hl]
  ring

theorem stored_closed (D : Loss K) (phi : Nat → Nat → K) (g c leak : Nat)
    (hb : D.M.onBoundary c leak = true) (ha : D.al leak = 1) : D.storedFace phi g c leak = 0 := by
  simp [Loss.storedFace, Loss.dtilde, dBoundary, hb, ha]

/-- C101: what is stored in an interior cell of a slab: the current through the high face alone, times
    six over the surface to cross-section ratio; the low face does not enter. -/
theorem C101_current_partial (D : Loss K) (hp : D.Pos) (hg : D.M.WF) (h1 : D.M.dim = 1)
    (hflat : ∀ leak, 2 ≤ leak → D.al leak = 1) (sqrt : K → K)
    (hs : ∀ a, 0 ≤ a → 0 ≤ sqrt a ∧ sqrt a * sqrt a = a) (phi : Nat → Nat → K) (g c : Nat)
    (hc : c < D.M.size) (b0 : D.M.onBoundary c 0 = false) (b1 : D.M.onBoundary c 1 = false) (J : K)
    (hJ : D.IsCurrent g (phi g) c 1 J) :
    D.storedCurrent sqrt phi g c = |J| * (6 * (D.M.width c 1 * D.M.width c 2)
      / (D.M.width c 1 * D.M.width c 2 + D.M.width c 0 * D.M.width c 2 + D.M.width c 0 * D.M.width c 1)) := by
  rw [(isCurrent_iff D hp g (phi g) c 1 J).1 hJ]
  have f0 := stored_low D phi g c 0 rfl b0
  have f1 := stored_high D phi g c 1 rfl b1
  have fb : ∀ l, 2 ≤ l → l < 6 → D.storedFace phi g c l = 0 := fun l h2 h6 =>
    stored_closed D phi g c l (flat_boundary D.M hg hc (by omega) h6) (hflat l h2)
  have hx : 0 < D.M.width c 0 := hp.h _ _
  have hy : 0 < D.M.width c 1 := hp.h _ _
  have hz : 0 < D.M.width c 2 := hp.h _ _
  unfold Loss.storedCurrent Loss.storedComp
  simp only [f0, f1, fb 2 (by omega) (by omega), fb 3 (by omega) (by omega), fb 4 (by omega) (by omega),
    fb 5 (by omega) (by omega), if_true, one_ne_zero, if_false, OfNat.ofNat_ne_zero, OfNat.ofNat_ne_one]
  generalize D.faceTerm g (phi g) c 1 = F
  generalize D.M.width c 0 = x at *
  generalize D.M.width c 1 = y at *
  generalize D.M.width c 2 = z at *
  refine Gmres.IsSqrt.unique (sq := sqrt) hs (by positivity) ?_
  have : |F| * |F| = F * F := abs_mul_abs_self F
  have hA : y * z + x * z + x * y ≠ 0 := by positivity
  field_simp
  linear_combination (y ^ 2 * z ^ 2) * this

/-- C101: in a medium with all faces of the cell interior or closed a flat flux stores no current. -/
theorem C101_current_flat (D : Loss K) (sqrt : K → K) (hs0 : sqrt 0 = 0) (phi : Nat → Nat → K) (g c : Nat)
    (hcl : ∀ leak < 6, D.M.onBoundary c leak = true → D.al leak = 1)
    (hflat : ∀ leak < 6, D.M.onBoundary c leak = false → phi g (D.M.neighbour c leak) = phi g c) :
    D.storedCurrent sqrt phi g c = 0 := by
  have hz : ∀ leak < 6, D.storedFace phi g c leak = 0 := by
    intro leak hl
    by_cases hb : D.M.onBoundary c leak = true
    · exact stored_closed D phi g c leak hb (hcl leak hl hb)
    · have hb' : D.M.onBoundary c leak = false := by simpa using hb
      simp [Loss.storedFace, hb', hflat leak hl hb']
  unfold Loss.storedCurrent Loss.storedComp
  simp only [hz 0 (by omega), hz 1 (by omega), hz 2 (by omega), hz 3 (by omega), hz 4 (by omega),
    hz 5 (by omega)]
  simp [hs0]

/-! ## Concrete cases -/

/-- The mesh and materials of `demoLoss`, a source in every cell, incident current on the north side. -/
def demoSrc (adj : Bool) : FixedSrc ℚ where
  L := demoLoss adj
  ext := [some fun c g => 1 + c + g, none]
  fsrc := some fun g c => 2 * g + c
  jin := fun s _ u _ => if s = 3 then 1 + u else 0

theorem demoSrc_ok (adj : Bool) : (demoSrc adj).OK := by
  refine ⟨demoLoss_ok adj, ?_, ?_, ?_⟩
  · cases adj <;> decide
  · intro leak hl
    have hl' : leak < 4 := hl
    interval_cases leak
    · exact Or.inr ⟨by cases adj <;> decide, fun _ _ _ => rfl⟩
    · exact Or.inl (by cases adj <;> decide)
    · exact Or.inl (by cases adj <;> decide)
    · exact Or.inl (by cases adj <;> decide)
  · intro leak hl h6
    have hl' : 4 ≤ leak := hl
    interval_cases leak <;> cases adj <;> decide

example (adj : Bool) : (demoSrc adj).L.Pos := demoLoss_pos adj

-- North-west cell of the mesh, second group: source 1 + 3 + 1, no fission (it is in the operator), and
-- the incident current 1 through the north face of width 2 with D = 1/2.
example : (demoSrc false).rhs (3 + 1 * 6) = 5 + 8 * (1 / 2) * 1 / ((4 * (1 / 2) + 2) * 2) := by
  decide +kernel

/-- C101: the full claim about the stored boundary currents fails on the reflecting west side. -/
theorem C101_claim_fails : ¬ C101Claim ℚ := by
  intro h
  have hb : (demoSrc false).L.M.onBoundary 0 0 = true := by decide
  have ha : (demoSrc false).L.al 0 = 1 := by decide
  have hj : (demoSrc false).jinAt 0 0 0 = 0 := by decide +kernel
  have h1 := h (demoSrc false) (demoSrc_ok false) (demoLoss_pos false) (fun _ => 1) 0 0 0 (by decide)
    (by decide) (by decide) hb hj
  obtain ⟨h2, h3⟩ := C101_reflect_outflow (demoSrc false) (demoLoss_pos false) (fun _ => 1) (g := 0)
    (c := 0) (leak := 0) (by decide) (by decide) hb ha hj (by norm_num)
  have h4 := h3 _ h1
  rw [hj, sub_zero] at h4
  exact h2.ne' h4

/-- C101: the claim about rebuilding the operator fails in adjoint mode with two groups. -/
theorem C101_refresh_claim_fails : ¬ C101RefreshClaim ℚ := by
  intro h
  obtain ⟨_, h2, h3⟩ := C101_refresh_adjoint (demoLoss true) rfl (by decide) 2 (by norm_num)
  have := h (demoLoss true) 2
  rw [h2, h3] at this
  revert this
  decide

/-- One group, one material. -/
def demoSlabMat : Material.Mat K :=
  { Material.Mat.new 1 1 with
    sigT := fun _ _ => 1
    diff := fun _ _ => 1 }

/-- A slab of three cells of unit width, one group, open on both ends. -/
def demoSlab : Loss K where
  M := ⟨1, 3, 1, 1, fun _ _ => 1⟩
  mat := demoSlabMat.finalize
  mmap := fun _ => 0
  al := fun s => if s < 2 then 0 else 1
  adjoint := false
  cutoff := 0
  fission := false
  sf := 0
  keff := 1

theorem demoSlab_ok : (demoSlab : Loss K).OK := by
  refine ⟨⟨show 1 ≤ 3 by decide, ?_⟩, ⟨demoSlabMat, rfl⟩, ?_, ?_, ?_⟩
  · intro a h1 h2
    have h1' : 1 ≤ a := h1
    interval_cases a <;> rfl
  · intro g gp m
    exact le_rfl
  · intro c _
    exact Nat.zero_lt_one
  · exact Nat.zero_le _

theorem demoSlab_pos : (demoSlab : Loss K).Pos := by
  refine ⟨fun _ _ => one_pos, fun _ _ => one_pos, fun s => ?_⟩
  show (-1 : K) ≤ (if s < 2 then 0 else 1) ∧ (if s < 2 then 0 else 1) ≤ (1 : K)
  split <;> norm_num

-- The middle cell of the slab meets the hypotheses of `C101_current_partial`.
theorem demoSlab_mid : (demoSlab : Loss K).M.WF ∧ (demoSlab : Loss K).M.onBoundary 1 0 = false ∧
    (demoSlab : Loss K).M.onBoundary 1 1 = false ∧ ∀ leak, 2 ≤ leak → (demoSlab : Loss K).al leak = 1 :=
  ⟨demoSlab_ok.grid, rfl, rfl, fun l hl => if_neg (by omega)⟩

/-- C101: the full claim about the stored cell current fails: a flux falling by one per unit length has
    current one in the middle of the slab, and two is stored. -/
theorem C101_current_claim_fails : ¬ C101CurrentClaim ℝ := by
  intro h
  have hs : ∀ a : ℝ, 0 ≤ a → 0 ≤ Real.sqrt a ∧ Real.sqrt a * Real.sqrt a = a :=
    fun a ha => ⟨Real.sqrt_nonneg a, Real.mul_self_sqrt ha⟩
  obtain ⟨m1, m2, m3, m4⟩ := demoSlab_mid (K := ℝ)
  have hJ : ∀ leak < 6, demoSlab.IsCurrent 0 (fun c => (3 : ℝ) - c) 1 leak
      (if leak = 0 then -1 else if leak = 1 then 1 else 0) := by
    intro leak hl
    rw [isCurrent_iff _ demoSlab_pos]
    have n0 : (demoSlab : Loss ℝ).M.neighbour 1 0 = 0 := rfl
    have n1 : (demoSlab : Loss ℝ).M.neighbour 1 1 = 2 := rfl
    have d0 : ∀ leak, (demoSlab : Loss ℝ).M.onBoundary 1 leak = false →
        (demoSlab : Loss ℝ).dtilde 0 1 leak = 1 := by
      intro leak hb
      unfold Loss.dtilde
      rw [hb]
      show (2 * 1 * 1 : ℝ) / (1 * 1 + 1 * 1) = 1
      norm_num
    have hc : ∀ leak, 2 ≤ leak → leak < 6 → demoSlab.faceTerm 0 (fun c => (3 : ℝ) - c) 1 leak = 0 := by
      intro leak h2 h6
      have hb : (demoSlab : Loss ℝ).M.onBoundary 1 leak = true :=
        flat_boundary _ m1 (by decide) h2 h6
      simp [Loss.faceTerm, Loss.dtilde, hb, m4 leak h2, dBoundary]
    rcases Nat.lt_or_ge leak 2 with h2 | h2
    · interval_cases leak
      · unfold Loss.faceTerm
        rw [m2, d0 0 m2, n0]
        norm_num
      · unfold Loss.faceTerm
        rw [m3, d0 1 m3, n1]
        norm_num
    · rw [hc leak h2 hl, if_neg (by omega), if_neg (by omega)]
  have h1 := h demoSlab demoSlab_ok demoSlab_pos Real.sqrt hs (fun _ c => 3 - c) 0 1 (by decide) (by decide)
    _ hJ
  have h2 := C101_current_partial demoSlab demoSlab_pos m1 rfl m4 Real.sqrt hs (fun _ c => 3 - c) 0 1
    (by decide) m2 m3 1 (by simpa using hJ 1 (by omega))
  rw [h2] at h1
  have w : ∀ a, (demoSlab : Loss ℝ).M.width 1 a = 1 := fun _ => rfl
  simp [w, Loss.centreCurrent] at h1
  norm_num at h1

end Detran.Diffusion
