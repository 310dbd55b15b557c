import Verif.Props.DiffusionGain
import Verif.Props.MatrixRefill

/-!
# Property C52: the coarse-mesh finite difference operator

`Cmfd.L` carries two fields the operator does not read, the cutoff and the scatter/fission flag; the
hypotheses set them to the values that stand for "all groups".
-/

namespace Detran.Diffusion

open Detran.Matrix Finset

variable {K : Type} [Field K] [LinearOrder K] [IsStrictOrderedRing K]

/-! ## Specification -/

/-- All groups take part. -/
structure Cmfd.Full (D : Cmfd K) : Prop where
  ok : D.L.OK
  pos : 0 < D.L.mat.G
  cut : D.L.cutoff = if D.L.adjoint then D.L.mat.G - 1 else 0
  sf : D.L.sf = 0

/-- Specification: the tallied net current out of cell `(i, j, k)` through a face: the tally counts the
    direction of the axis, so it leaves through the high face with its sign and through the low face
    with the opposite one. -/
def Cmfd.out (D : Cmfd K) (g c leak : Nat) : K :=
  let i := D.L.M.coord c 0
  let j := D.L.M.coord c 1
  let k := D.L.M.coord c 2
  match leak with
  | 0 => - D.net g 0 i j k
  | 1 => D.net g 0 (i + 1) j k
  | 2 => - D.net g 1 i j k
  | 3 => D.net g 1 i (j + 1) k
  | 4 => - D.net g 2 i j k
  | _ => D.net g 2 i j (k + 1)

/-- Flux sum a correction factor multiplies at a face. -/
def Cmfd.weight (D : Cmfd K) (g c leak : Nat) : K :=
  if D.L.M.onBoundary c leak then D.phi g c else D.phi g c + D.phi g (D.L.M.neighbour c leak)

/-- No division by zero: widths and fluxes. -/
structure Cmfd.NZ (D : Cmfd K) : Prop where
  h : ∀ a i, D.L.M.h a i ≠ 0
  phi : ∀ g < D.L.mat.G, ∀ c < D.L.M.size, D.phi g c ≠ 0
  sum : ∀ g < D.L.mat.G, ∀ c < D.L.M.size, ∀ leak < 2 * D.L.M.dim, D.L.M.onBoundary c leak = false →
    D.phi g c + D.phi g (D.L.M.neighbour c leak) ≠ 0

/-! ## The groups -/

theorem cmfd_groups (D : Cmfd K) (f : D.Full) : D.groups = D.L.groups := by
  unfold Cmfd.groups Loss.groups
  rw [f.cut]
  have := f.pos
  split
  · have : (D.L.mat.G : Int) - 1 = ((D.L.mat.G - 1 : Nat) : Int) := by omega
    rw [this]
  · rfl

theorem full_active (D : Cmfd K) (f : D.Full) (g : Nat) : g ∈ D.L.active ↔ g < D.L.mat.G := by
  unfold Loss.active
  rw [f.cut]
  have := f.pos
  split
  · rw [mem_range]; omega
  · rw [mem_Ico]; omega

theorem full_pos (D : Cmfd K) (f : D.Full) (g c : Nat) : D.L.pos g c = c + g * D.L.M.size := by
  unfold Loss.pos
  rw [f.cut]
  split
  · rfl
  · simp

theorem cmfd_scat (D : Cmfd K) (f : D.Full) (g : Nat) (hg : g < D.L.mat.G) : D.scat g = D.L.scat g := by
  unfold Cmfd.scat Loss.scat
  obtain ⟨x, hx⟩ := f.ok.fin
  rw [f.cut, f.sf]
  simp only [if_true]
  cases hadj : D.L.adjoint with
  | false => simp
  | true =>
    simp only [if_true]
    rw [hx] at hg ⊢
    obtain ⟨⟨m1, _⟩, _⟩ := Material.C21_bounds_adjoint x g hg
    have hl : x.finalize.lower g true < x.finalize.G := by
      rcases m1 with e | e
      · rw [e]; exact hg
      · exact e.1
    rw [show min (x.finalize.lower g true) (x.finalize.G - 1) = x.finalize.lower g true by omega]

theorem cmfd_wf (D : Cmfd K) (f : D.Full) : D.sys.WF := by
  obtain ⟨h1, h2, h3, h4, h5, h6⟩ := groups_spec D.L f.ok
  have eg := cmfd_groups D f
  have egi : ∀ g, D.L.gi g = g := by
    intro g
    unfold Loss.gi
    rw [f.cut]
    split
    · rfl
    · simp
  have hlen : D.groups.length = D.L.mat.G := by
    rw [eg, ← List.toFinset_card_of_nodup h1]
    have : D.L.groups.toFinset = range D.L.mat.G := by
      ext g
      rw [List.mem_toFinset, h2, full_active D f, mem_range]
    rw [this, card_range]
  have hmem : ∀ g, g ∈ D.groups ↔ g < D.L.mat.G := by
    intro g
    rw [eg, h2, full_active D f]
  refine ⟨?_, fun _ _ _ _ h => h, ?_, ?_, ?_, ?_, ?_, ?_⟩
  · show D.groups.Nodup
    rw [eg]
    exact h1
  · intro g hg
    show g < D.groups.length
    rw [hlen]
    exact (hmem g).1 hg
  · intro q hq
    have hq' : q < D.groups.length := hq
    rw [hlen] at hq'
    exact ⟨q, (hmem q).2 hq', rfl⟩
  · intro g hg c hc
    have := faces_length D.L.M f.ok.grid hc (fun l => if l < D.L.M.dim * 2 then D.nbOf g c l else none)
      (fun l _ hb => by simp [Cmfd.nbOf, hb])
    show ((List.range (D.L.M.dim * 2)).filterMap (D.nbOf g c)).length + D.groups.length
      ≤ 1 + 2 * D.L.M.dim + D.L.mat.G
    have h7 : ((List.range (D.L.M.dim * 2)).filterMap (D.nbOf g c)).length ≤ D.L.M.dim * 2 := by
      refine (List.length_filterMap_le _ _).trans ?_
      rw [List.length_range]
    omega
  · intro g hg c hc e he
    obtain ⟨l, hl, he⟩ := List.mem_filterMap.1 he
    unfold Cmfd.nbOf at he
    have := f.ok.grid.dim_le
    rw [List.mem_range] at hl
    by_cases hb : D.L.M.onBoundary c l = true
    · simp [hb] at he
    · rw [if_neg hb, Option.some.injEq] at he
      subst he
      exact (neighbour_spec D.L.M hc (by omega) (by simpa using hb)).1
  · intro g hg
    show (D.scat g).Nodup
    rw [cmfd_scat D f g ((hmem g).1 hg)]
    exact (scat_spec D.L f.ok g ((full_active D f g).2 ((hmem g).1 hg))).1
  · intro g hg gp hgp
    have hgp' : gp ∈ D.scat g := hgp
    rw [cmfd_scat D f g ((hmem g).1 hg)] at hgp'
    have := (scat_spec D.L f.ok g ((full_active D f g).2 ((hmem g).1 hg))).2.1 gp hgp'
    exact ⟨(hmem gp).2 ((full_active D f gp).1 this.1), this.2⟩

/-! ## The rows -/

/-- What the faces contribute, applied to a flux. -/
def Cmfd.faceApply (D : Cmfd K) (g : Nat) (phi : Nat → K) (c leak : Nat) : K :=
  if D.L.M.onBoundary c leak then D.jo g c leak * phi c
  else D.jo g c leak * phi c + (D.dhat g c leak - (D.pair g c leak).1) * phi (D.L.M.neighbour c leak)

theorem range_dim (n : Nat) (hn : n ≤ 3) (f : Nat → K) :
    ((List.range (n * 2)).map f).sum = ((List.range 6).map (fun l => if l < 2 * n then f l else 0)).sum := by
  have : n = 0 ∨ n = 1 ∨ n = 2 ∨ n = 3 := by omega
  rcases this with rfl | rfl | rfl | rfl <;> simp [List.range_succ]

theorem cmfd_rows (D : Cmfd K) (f : D.Full) (srt : List (Trip K) → List (Trip K)) (hs : IsSort srt) :
    ∃ C, D.sys.make srt = .ok (some C, D.sys.ops.map fun _ => true) ∧
      C.m = D.L.mat.G * D.L.M.size ∧ C.n = D.L.mat.G * D.L.M.size ∧
      ∀ x, ∀ g < D.L.mat.G, ∀ c < D.L.M.size,
        C.multiply x (c + g * D.L.M.size) = (∑ leak ∈ range (2 * D.L.M.dim),
          D.faceApply g (fun c => x (c + g * D.L.M.size)) c leak / D.L.M.width c (leak / 2))
          + D.L.local x g c := by
  obtain ⟨C, h1, h2, h3, h4⟩ := (cmfd_wf D f).make_ok srt hs
  obtain ⟨g1, g2, _⟩ := groups_spec D.L f.ok
  have eg := cmfd_groups D f
  have hlen : D.groups.length = D.L.mat.G := by
    rw [eg, ← List.toFinset_card_of_nodup g1]
    have : D.L.groups.toFinset = range D.L.mat.G := by
      ext g
      rw [List.mem_toFinset, g2, full_active D f, mem_range]
    rw [this, card_range]
  have em : D.sys.m = D.L.mat.G * D.L.M.size := by
    show D.groups.length * D.L.M.size = _
    rw [hlen]
  refine ⟨C, h1, h2.trans em, h3.trans em, fun x g hg c hc => ?_⟩
  have hga : g ∈ D.L.active := (full_active D f g).2 hg
  have hrow : ∀ g c, D.sys.row g c = c + g * D.L.M.size := fun _ _ => rfl
  have e := h4 x g (show g ∈ D.groups by rw [eg, g2]; exact hga) c hc
  rw [hrow] at e
  rw [e]
  unfold Sys.rowSum
  simp only [hrow]
  have hsc : (((D.sys).scat g).map (fun gp => D.sys.sc g gp c * x (c + gp * D.L.M.size))).sum
      = - ∑ gp ∈ D.L.active.erase g, D.L.scatXs g gp c * x (c + gp * D.L.M.size) := by
    show ((D.scat g).map (fun gp => D.L.sc g gp c * x (c + gp * D.L.M.size))).sum = _
    rw [cmfd_scat D f g hg]
    obtain ⟨s1, s2, s3⟩ := scat_spec D.L f.ok g hga
    rw [← List.sum_toFinset _ s1, ← Finset.sum_neg_distrib]
    rw [Finset.sum_congr rfl (g := fun gp => D.L.sc g gp c * x (c + gp * D.L.M.size))
      (s₁ := D.L.active.erase g) (fun gp _ => by unfold Loss.sc Loss.scatXs; split <;> ring)]
    refine Finset.sum_subset ?_ ?_
    · intro gp hgp
      have := s2 gp (List.mem_toFinset.1 hgp)
      rw [Finset.mem_erase]
      exact ⟨this.2, this.1⟩
    · intro gp hgp hn
      rw [Finset.mem_erase] at hgp
      rw [s3 f.sf gp hgp.2 hgp.1 (fun h => hn (List.mem_toFinset.2 h)) c hc, zero_mul]
  have hfi : D.sys.fisSum x g c = if D.L.fission = true ∧ D.L.sf = 0 then
          - ((∑ gp ∈ D.L.active, D.L.fisXs g gp c * x (c + gp * D.L.M.size)) / D.L.keff) else 0 := by
    by_cases hf : D.L.fission = true
    · rw [if_pos ⟨hf, f.sf⟩]
      have : D.sys.fis = some D.L.fis := by simp [Cmfd.sys, hf]
      unfold Sys.fisSum
      rw [this]
      show (D.groups.map (fun gp => D.L.fis g gp c * x (c + gp * D.L.M.size))).sum = _
      rw [eg, sum_list_active D.L f.ok, Finset.sum_div, ← Finset.sum_neg_distrib]
      refine Finset.sum_congr rfl fun gp _ => ?_
      unfold Loss.fis Loss.fisXs
      split <;> ring
    · rw [if_neg (fun h => hf h.1)]
      have : D.sys.fis = none := by simp [Cmfd.sys, hf]
      unfold Sys.fisSum
      rw [this]
  rw [hsc, hfi]
  have hd3 := f.ok.grid.dim_le
  have hface : ((D.sys.nb g c).map (fun e => e.2 * x (e.1 + g * D.L.M.size))).sum
      + ((D.jo g c 1 + D.jo g c 0) / D.L.M.width c 0 +
     (D.jo g c 3 + D.jo g c 2) / D.L.M.width c 1 +
     (D.jo g c 5 + D.jo g c 4) / D.L.M.width c 2) * x (c + g * D.L.M.size)
     = ∑ leak ∈ range (2 * D.L.M.dim),
          D.faceApply g (fun c => x (c + g * D.L.M.size)) c leak / D.L.M.width c (leak / 2) := by
    show (((List.range (D.L.M.dim * 2)).filterMap (D.nbOf g c)).map _).sum + _ = _
    rw [show range (2 * D.L.M.dim) = range (D.L.M.dim * 2) by rw [Nat.mul_comm]]
    rw [sum_filterMap, range_dim _ hd3, ← Material.sum_map_range, range_dim _ hd3, range6, range6]
    have key : ∀ leak, (if leak < 2 * D.L.M.dim then
        (D.nbOf g c leak).elim 0 (fun b => b.2 * x (b.1 + g * D.L.M.size)) else 0)
        = (if leak < 2 * D.L.M.dim then D.faceApply g (fun c => x (c + g * D.L.M.size)) c leak
            / D.L.M.width c (leak / 2) else 0)
          - D.jo g c leak * x (c + g * D.L.M.size) / D.L.M.width c (leak / 2) := by
      intro leak
      by_cases hl : leak < 2 * D.L.M.dim
      · simp only [hl, if_true]
        unfold Cmfd.nbOf Cmfd.faceApply
        by_cases hb : D.L.M.onBoundary c leak = true
        · simp [hb]
        · simp only [hb, Bool.false_eq_true, if_false, Option.elim_some]
          ring
      · have : D.jo g c leak = 0 := by simp [Cmfd.jo, hl]
        simp [hl, this]
    rw [key, key, key, key, key, key]
    norm_num only
    ring
  rw [← hface]
  have hdg : D.sys.diag g c = ((D.jo g c 1 + D.jo g c 0) / D.L.M.width c 0 +
     (D.jo g c 3 + D.jo g c 2) / D.L.M.width c 1 +
     (D.jo g c 5 + D.jo g c 4) / D.L.M.width c 2) +
    (D.L.mat.sigT g (D.L.mmap c) - D.L.mat.sigS g g (D.L.mmap c)) := rfl
  rw [hdg]
  unfold Loss.local
  simp only [f.sf, if_true, full_pos D f, and_true]
  rw [← Finset.add_sum_erase _ (fun gp => D.L.scatXs g gp c * x (c + gp * D.L.M.size)) hga]
  have : D.L.scatXs g g c = D.L.mat.sigS g g (D.L.mmap c) := by unfold Loss.scatXs; split <;> rfl
  rw [this]
  split <;> ring

theorem J_out (D : Cmfd K) (hh : ∀ a i, D.L.M.h a i ≠ 0) (g c leak : Nat) (hl : leak < 6) :
    D.J g c leak / D.L.M.width c (leak / 2) = D.out g c leak / D.L.M.volume c := by
  have h0 : D.L.M.width c 0 ≠ 0 := hh _ _
  have h1 : D.L.M.width c 1 ≠ 0 := hh _ _
  have h2 : D.L.M.width c 2 ≠ 0 := hh _ _
  unfold Cmfd.J Cmfd.out Grid.surf Grid.volume
  have : leak = 0 ∨ leak = 1 ∨ leak = 2 ∨ leak = 3 ∨ leak = 4 ∨ leak = 5 := by omega
  rcases this with rfl | rfl | rfl | rfl | rfl | rfl <;> norm_num <;> field_simp

/-- At the flux of the build a face contributes the tallied current, and the part of the correction
    kept back by the relaxation. -/
theorem faceApply_phi (D : Cmfd K) (nz : D.NZ) (g : Nat) (hg : g < D.L.mat.G) (c : Nat)
    (hc : c < D.L.M.size) (leak : Nat) (hl : leak < 2 * D.L.M.dim) :
    D.faceApply g (D.phi g) c leak = D.J g c leak
      + (1 - D.alpha) * (D.old g c leak - (D.pair g c leak).2) * D.weight g c leak := by
  have hp := nz.phi g hg c hc
  unfold Cmfd.faceApply Cmfd.jo Cmfd.dhat Cmfd.weight
  rw [if_pos hl]
  unfold Cmfd.pair
  by_cases hb : D.L.M.onBoundary c leak = true
  · simp only [hb, if_true]
    field_simp
    ring
  · have hs := nz.sum g hg c hc leak hl (by simpa using hb)
    simp only [hb, Bool.false_eq_true, if_false]
    by_cases hf : D.fix g c leak = true
    · simp only [hf, if_true]
      field_simp
      ring
    · simp only [hf, Bool.false_eq_true, if_false]
      have hs' : D.phi g (D.L.M.neighbour c leak) + D.phi g c ≠ 0 := by rwa [add_comm]
      field_simp
      ring

/-- C52, general form: the operator is built with every `insert` succeeding, and applied to the flux it
    was built from its row is the tallied net current out of the cell over the cell's volume, plus
    removal less scatter and fission, plus `1 - alpha` times the difference between the stored and the
    new correction factors. -/
theorem C52_rows (D : Cmfd K) (f : D.Full) (nz : D.NZ) (srt : List (Trip K) → List (Trip K)) (hs : IsSort srt) :
    ∃ C, D.sys.make srt = .ok (some C, D.sys.ops.map fun _ => true) ∧
      C.m = D.L.mat.G * D.L.M.size ∧
      ∀ x, (∀ g < D.L.mat.G, ∀ c < D.L.M.size, x (c + g * D.L.M.size) = D.phi g c) →
      ∀ g < D.L.mat.G, ∀ c < D.L.M.size,
        C.multiply x (c + g * D.L.M.size) =
          (∑ leak ∈ range (2 * D.L.M.dim), D.out g c leak) / D.L.M.volume c + D.L.local x g c
          + (1 - D.alpha) * ∑ leak ∈ range (2 * D.L.M.dim),
              (D.old g c leak - (D.pair g c leak).2) * D.weight g c leak / D.L.M.width c (leak / 2) := by
  obtain ⟨C, h1, h2, _, h4⟩ := cmfd_rows D f srt hs
  refine ⟨C, h1, h2, fun x hx g hg c hc => ?_⟩
  rw [h4 x g hg c hc, Finset.mul_sum, Finset.sum_div]
  have hd3 := f.ok.grid.dim_le
  rw [add_right_comm, ← Finset.sum_add_distrib]
  congr 1
  refine Finset.sum_congr rfl fun leak hl => ?_
  rw [mem_range] at hl
  rw [← J_out D nz.h g c leak (by omega)]
  have e : D.faceApply g (fun c => x (c + g * D.L.M.size)) c leak = D.faceApply g (D.phi g) c leak := by
    unfold Cmfd.faceApply
    simp only [hx g hg c hc]
    by_cases hb : D.L.M.onBoundary c leak = true
    · simp only [hb, if_true]
    · simp only [hb, Bool.false_eq_true, if_false]
      rw [hx g hg _ (neighbour_spec D.L.M hc (by omega) (by simpa using hb)).1]
  rw [e, faceApply_phi D nz g hg c hc leak hl]
  ring

/-- C52: without relaxation (the first build, or factor one) the row is the coarse balance of the tallied
    currents exactly, whichever faces the positivity fix touches. -/
theorem C52_balance (D : Cmfd K) (f : D.Full) (nz : D.NZ) (ha : D.alpha = 1)
    (srt : List (Trip K) → List (Trip K)) (hs : IsSort srt) (C : CSR K) (bs : List Bool)
    (hC : D.sys.make srt = .ok (some C, bs)) (x : Nat → K)
    (hx : ∀ g < D.L.mat.G, ∀ c < D.L.M.size, x (c + g * D.L.M.size) = D.phi g c)
    (g : Nat) (hg : g < D.L.mat.G) (c : Nat) (hc : c < D.L.M.size) :
    C.multiply x (c + g * D.L.M.size) =
      (∑ leak ∈ range (2 * D.L.M.dim), D.out g c leak) / D.L.M.volume c + D.L.local x g c := by
  obtain ⟨C', h1, _, h4⟩ := C52_rows D f nz srt hs
  rw [h1, Out.ok.injEq, Prod.mk.injEq, Option.some.injEq] at hC
  obtain ⟨rfl, _⟩ := hC
  rw [h4 x hx g hg c hc, ha, sub_self, zero_mul, add_zero]

/-- C52: with any relaxation factor the balance is exact once the stored factors equal the new ones. -/
theorem C52_balance_converged (D : Cmfd K) (f : D.Full) (nz : D.NZ)
    (ho : ∀ g < D.L.mat.G, ∀ c < D.L.M.size, ∀ leak < 2 * D.L.M.dim, D.old g c leak = (D.pair g c leak).2)
    (srt : List (Trip K) → List (Trip K)) (hs : IsSort srt) (C : CSR K) (bs : List Bool)
    (hC : D.sys.make srt = .ok (some C, bs)) (x : Nat → K)
    (hx : ∀ g < D.L.mat.G, ∀ c < D.L.M.size, x (c + g * D.L.M.size) = D.phi g c)
    (g : Nat) (hg : g < D.L.mat.G) (c : Nat) (hc : c < D.L.M.size) :
    C.multiply x (c + g * D.L.M.size) =
      (∑ leak ∈ range (2 * D.L.M.dim), D.out g c leak) / D.L.M.volume c + D.L.local x g c := by
  obtain ⟨C', h1, _, h4⟩ := C52_rows D f nz srt hs
  rw [h1, Out.ok.injEq, Prod.mk.injEq, Option.some.injEq] at hC
  obtain ⟨rfl, _⟩ := hC
  have hz : ∑ leak ∈ range (2 * D.L.M.dim),
      (D.old g c leak - (D.pair g c leak).2) * D.weight g c leak / D.L.M.width c (leak / 2) = 0 :=
    Finset.sum_eq_zero fun leak hl => by
      rw [ho g hg c hc leak (mem_range.1 hl), sub_self, zero_mul, zero_div]
  rw [h4 x hx g hg c hc, hz, mul_zero, add_zero]

/-! ## Conservation -/

theorem out_axis (D : Cmfd K) (a : Nat) (ha : a < 3) (g : Nat) :
    ∑ c ∈ range D.L.M.size, (D.out g c (2 * a) + D.out g c (2 * a + 1))
      = ∑ c ∈ range D.L.M.size, ((if D.L.M.onBoundary c (2 * a) then D.out g c (2 * a) else 0)
        + (if D.L.M.onBoundary c (2 * a + 1) then D.out g c (2 * a + 1) else 0)) := by
  rw [sum_cells D.L.M a ha, sum_cells D.L.M a ha]
  refine Finset.sum_congr rfl fun v hv => Finset.sum_congr rfl fun u hu => ?_
  rw [mem_range] at hu hv
  -- the line of faces
  obtain ⟨F, hF⟩ : ∃ F : Nat → K, ∀ s < D.L.M.count a,
      D.out g (D.L.M.cellA a s u v) (2 * a) = - F s ∧ D.out g (D.L.M.cellA a s u v) (2 * a + 1) = F (s + 1) := by
    have : a = 0 ∨ a = 1 ∨ a = 2 := by omega
    rcases this with rfl | rfl | rfl
    · refine ⟨fun s => D.net g 0 s u v, fun s hs => ?_⟩
      obtain ⟨e0, e1, e2⟩ := coord_index D.L.M (k := v) hs hu
      have e : D.L.M.cellA 0 s u v = D.L.M.index s u v := rfl
      rw [e]
      simp only [Cmfd.out, e0, e1, e2]
      trivial
    · refine ⟨fun s => D.net g 1 u s v, fun s hs => ?_⟩
      obtain ⟨e0, e1, e2⟩ := coord_index D.L.M (k := v) hu hs
      have e : D.L.M.cellA 1 s u v = D.L.M.index u s v := rfl
      rw [e]
      simp only [Cmfd.out, e0, e1, e2]
      trivial
    · refine ⟨fun s => D.net g 2 u v s, fun s hs => ?_⟩
      obtain ⟨e0, e1, e2⟩ := coord_index D.L.M (k := s) hu hv
      have e : D.L.M.cellA 2 s u v = D.L.M.index u v s := rfl
      rw [e]
      simp only [Cmfd.out, e0, e1, e2]
      trivial
  have hb : ∀ s < D.L.M.count a, (D.L.M.onBoundary (D.L.M.cellA a s u v) (2 * a) = decide (s = 0)) ∧
      (D.L.M.onBoundary (D.L.M.cellA a s u v) (2 * a + 1) = decide (s = D.L.M.count a - 1)) := by
    intro s hs
    have hco := (cellA_coord D.L.M a ha hs hu hv).1
    refine ⟨by rw [boundary_low, hco], by rw [boundary_high, hco]⟩
  rw [Finset.sum_congr rfl (f := fun s => D.out g (D.L.M.cellA a s u v) (2 * a)
    + D.out g (D.L.M.cellA a s u v) (2 * a + 1)) (g := fun s => F (s + 1) - F s) (fun s hs => by
    rw [(hF s (mem_range.1 hs)).1, (hF s (mem_range.1 hs)).2]; ring)]
  rw [Finset.sum_congr rfl (s₁ := range (D.L.M.count a))
    (f := fun s => (if D.L.M.onBoundary (D.L.M.cellA a s u v) (2 * a) then
        D.out g (D.L.M.cellA a s u v) (2 * a) else 0)
      + (if D.L.M.onBoundary (D.L.M.cellA a s u v) (2 * a + 1) then
        D.out g (D.L.M.cellA a s u v) (2 * a + 1) else 0)) (g := fun s => (if s = 0 then - F s else 0)
    + (if s = D.L.M.count a - 1 then F (s + 1) else 0)) (fun s hs => by
    rw [(hF s (mem_range.1 hs)).1, (hF s (mem_range.1 hs)).2, (hb s (mem_range.1 hs)).1,
      (hb s (mem_range.1 hs)).2]
    simp)]
  rw [Finset.sum_range_sub, Finset.sum_add_distrib, Finset.sum_ite_eq', Finset.sum_ite_eq']
  rcases Nat.eq_zero_or_pos (D.L.M.count a) with h0 | h0
  · simp [h0]
  · rw [if_pos (mem_range.2 h0), if_pos (mem_range.2 (by omega)), Nat.sub_add_cancel h0]
    ring

/-- C52: summed over the mesh the balance keeps only the tallied currents through the outer boundary. -/
theorem C52_conservation (D : Cmfd K) (f : D.Full) (nz : D.NZ) (ha : D.alpha = 1)
    (srt : List (Trip K) → List (Trip K)) (hs : IsSort srt) (C : CSR K) (bs : List Bool)
    (hC : D.sys.make srt = .ok (some C, bs)) (x : Nat → K)
    (hx : ∀ g < D.L.mat.G, ∀ c < D.L.M.size, x (c + g * D.L.M.size) = D.phi g c)
    (g : Nat) (hg : g < D.L.mat.G) :
    ∑ c ∈ range D.L.M.size, D.L.M.volume c * C.multiply x (c + g * D.L.M.size) =
      (∑ c ∈ range D.L.M.size, ∑ leak ∈ range (2 * D.L.M.dim),
        if D.L.M.onBoundary c leak then D.out g c leak else 0)
      + ∑ c ∈ range D.L.M.size, D.L.M.volume c * D.L.local x g c := by
  have hd3 := f.ok.grid.dim_le
  have key : (∑ c ∈ range D.L.M.size, ∑ leak ∈ range (2 * D.L.M.dim),
        if D.L.M.onBoundary c leak then D.out g c leak else 0)
      = ∑ c ∈ range D.L.M.size, ∑ leak ∈ range (2 * D.L.M.dim), D.out g c leak := by
    have a0 := out_axis D 0 (by omega) g
    have a1 := out_axis D 1 (by omega) g
    have a2 := out_axis D 2 (by omega) g
    norm_num only at a0 a1 a2
    generalize hdim : D.L.M.dim = d at *
    have : d = 0 ∨ d = 1 ∨ d = 2 ∨ d = 3 := by omega
    rcases this with rfl | rfl | rfl | rfl
    · simp
    · norm_num only
      simp only [Finset.sum_range_succ _ 1, Finset.sum_range_succ _ 0, Finset.sum_range_zero, zero_add]
      simp only [Finset.sum_add_distrib] at a0 ⊢
      linear_combination - a0
    · norm_num only
      simp only [Finset.sum_range_succ _ 3, Finset.sum_range_succ _ 2, Finset.sum_range_succ _ 1,
        Finset.sum_range_succ _ 0, Finset.sum_range_zero, zero_add]
      simp only [Finset.sum_add_distrib] at a0 a1 ⊢
      linear_combination - a0 - a1
    · norm_num only
      simp only [Finset.sum_range_succ _ 5, Finset.sum_range_succ _ 4, Finset.sum_range_succ _ 3,
        Finset.sum_range_succ _ 2, Finset.sum_range_succ _ 1,
        Finset.sum_range_succ _ 0, Finset.sum_range_zero, zero_add]
      simp only [Finset.sum_add_distrib] at a0 a1 a2 ⊢
      linear_combination - a0 - a1 - a2
  rw [key, ← Finset.sum_add_distrib]
  refine Finset.sum_congr rfl fun c hc => ?_
  rw [C52_balance D f nz ha srt hs C bs hC x hx g hg c (mem_range.1 hc)]
  have hv : D.L.M.volume c ≠ 0 := mul_ne_zero (mul_ne_zero (nz.h _ _) (nz.h _ _)) (nz.h _ _)
  field_simp

/-! ## Rebuilding -/

theorem ops_place (S S' : Sys K) (h1 : S.size = S'.size) (h2 : S.groups = S'.groups) (h3 : S.gi = S'.gi)
    (h4 : ∀ g c, (S.nb g c).map Prod.fst = (S'.nb g c).map Prod.fst)
    (h5 : ∀ g ∈ S.groups, S.scat g = S'.scat g) (h6 : S.fis.isSome = S'.fis.isSome) :
    S.ops.map One.place = S'.ops.map One.place := by
  have hrow : ∀ g c, S.row g c = S'.row g c := by
    intro g c
    unfold Sys.row
    rw [h1, h3]
  have hI : ∀ g ∈ S.groups, ∀ c, (S.insOps g c).map One.place = (S'.insOps g c).map One.place := by
    intro g hg c
    unfold Sys.insOps
    rw [← h5 g hg]
    simp only [List.map_append, List.map_map, List.map_cons, List.map_nil, hrow]
    congr 1
    · congr 1
      have e : ∀ (l : List (Nat × K)) (v : Nat × K → K),
          l.map (One.place ∘ fun e => (⟨S'.row g c, S'.row g e.1, v e, false⟩ : Matrix.One K))
          = (l.map Prod.fst).map (fun n => (S'.row g c, S'.row g n, false)) := by
        intro l v
        rw [List.map_map]
        rfl
      rw [e _ (fun e => e.2), e _ (fun e => e.2), h4]
  have hA : ∀ g c, (S.addOps g c).map One.place = (S'.addOps g c).map One.place := by
    intro g c
    unfold Sys.addOps
    cases hf : S.fis with
    | none =>
      cases hf' : S'.fis with
      | none => rfl
      | some f' => rw [hf, hf'] at h6; simp at h6
    | some f =>
      cases hf' : S'.fis with
      | none => rw [hf, hf'] at h6; simp at h6
      | some f' =>
        simp only [List.map_map, ← h2]
        exact List.map_congr_left fun gp _ => by simp only [Function.comp, One.place, hrow]
  unfold Sys.ops
  rw [List.map_append, List.map_append, ← h2, ← h1]
  congr 1
  · rw [List.map_flatMap, List.map_flatMap]
    refine List.flatMap_congr fun g hg => ?_
    rw [List.map_flatMap, List.map_flatMap]
    exact List.flatMap_congr fun c _ => hI g hg c
  · rw [List.map_flatMap, List.map_flatMap]
    refine List.flatMap_congr fun g hg => ?_
    rw [List.map_flatMap, List.map_flatMap]
    exact List.flatMap_congr fun c _ => hA g c

/-- C52: building again on the same mesh with the same scattering structure (other fluxes, currents,
    cross sections, k) succeeds entirely and gives the operator a fresh construction would give. -/
theorem C52_rebuild (D D' : Cmfd K) (f : D.Full) (f' : D'.Full) (hM : D'.L.M = D.L.M)
    (hG : D'.L.mat.G = D.L.mat.G) (hadj : D'.L.adjoint = D.L.adjoint) (hfis : D'.L.fission = D.L.fission)
    (hsc : ∀ g < D.L.mat.G, D'.scat g = D.scat g)
    (srt : List (Trip K) → List (Trip K)) (hs : IsSort srt) (C : CSR K) (bs : List Bool)
    (hC : D.sys.make srt = .ok (some C, bs)) :
    ∃ C' C'', D'.reconstruct C srt = .ok (some C', D'.sys.ops.map fun _ => true) ∧
      D'.sys.make srt = .ok (some C'', D'.sys.ops.map fun _ => true) ∧ C'.m = C''.m ∧
      ∀ x, ∀ i < C'.m, C'.multiply x i = C''.multiply x i := by
  have hgr : D.sys.groups = D'.sys.groups := by
    show D.groups = D'.groups
    unfold Cmfd.groups
    rw [hG, hadj]
  have hmem : ∀ g ∈ D.sys.groups, g < D.L.mat.G := by
    intro g hg
    have hg' : g ∈ D.groups := hg
    rw [cmfd_groups D f, (groups_spec D.L f.ok).2.1] at hg'
    exact (full_active D f g).1 hg'
  have hplace : D.sys.ops.map One.place = D'.sys.ops.map One.place := by
    refine ops_place _ _ ?_ hgr rfl ?_ ?_ ?_
    · show D.L.M.size = D'.L.M.size
      rw [hM]
    · intro g c
      show ((List.range (D.L.M.dim * 2)).filterMap (D.nbOf g c)).map Prod.fst
        = ((List.range (D'.L.M.dim * 2)).filterMap (D'.nbOf g c)).map Prod.fst
      rw [List.map_filterMap, List.map_filterMap, hM]
      refine List.filterMap_congr fun l _ => ?_
      unfold Cmfd.nbOf
      rw [hM]
      split <;> rfl
    · intro g hg
      exact (hsc g (hmem g hg)).symm
    · show (if D.L.fission then some D.L.fis else none).isSome = (if D'.L.fission then some D'.L.fis else none).isSome
      rw [hfis]
      cases D.L.fission <;> rfl
  obtain ⟨C0, h0, hm0, _, _⟩ := (cmfd_wf D f).make_ok srt hs
  rw [h0, Out.ok.injEq, Prod.mk.injEq, Option.some.injEq] at hC
  obtain ⟨rfl, _⟩ := hC
  obtain ⟨C1, k0, _, _, _⟩ := (cmfd_wf D' f').make_ok srt hs
  have hmm : D'.sys.m = D.sys.m := by
    unfold Sys.m
    rw [← hgr]
    show _ * D'.L.M.size = _ * D.L.M.size
    rw [hM]
  have hin : InRange D.sys.m D.sys.m D.sys.ops := (cmfd_wf D f).inRange
  have hin' : InRange D'.sys.m D'.sys.m D'.sys.ops := (cmfd_wf D' f').inRange
  -- the first build
  obtain ⟨B0, hB0⟩ := C12_return_values D.sys.m D.sys.m (fun _ => D.sys.cap) D.sys.ops hin
  have h0' := h0
  unfold Sys.make at h0'
  rw [hB0] at h0'
  simp only [Out.bind, Out.ok.injEq, Prod.mk.injEq] at h0'
  rw [h0'.2] at hB0
  obtain ⟨A', C', r1, r2, r3, r4, r5⟩ := C09_refill srt hs _ _ _ D.sys.ops D'.sys.ops hin hplace B0 hB0 C0 h0'.1
  -- the fresh build
  obtain ⟨B1, hB1⟩ := C12_return_values D'.sys.m D'.sys.m (fun _ => D'.sys.cap) D'.sys.ops hin'
  have k0' := k0
  unfold Sys.make at k0'
  rw [hB1] at k0'
  simp only [Out.bind, Out.ok.injEq, Prod.mk.injEq] at k0'
  rw [k0'.2] at hB1
  obtain ⟨e1, e2, _⟩ := C09_shape srt hs _ _ _ D'.sys.ops hin' B1 _ hB1 C1 k0'.1
  refine ⟨C', C1, ?_, k0, by rw [r3, e1, hmm], fun x i hi => ?_⟩
  · unfold Cmfd.reconstruct
    rw [r1]
    simp only [Out.bind, r2]
  · rw [r3] at hi
    rw [r5 x i hi]
    exact (C08_multiply_all srt hs _ _ _ D'.sys.ops hin' B1 _ hB1 rfl C1 k0'.1 x i (by rw [hmm]; exact hi)).symm

/-! ## Concrete cases -/

/-- A two-group, three-cell slab with some currents and fluxes. -/
def demoCmfd (sc : ℚ) (alpha : ℚ) : Cmfd ℚ where
  L := { M := ⟨1, 3, 1, 1, fun a i => if a = 0 then 1 + i else 1⟩
         mat := ({ Material.Mat.new 1 2 with
            sigT := fun _ _ => 1
            sigS := fun g gp _ => if g = gp then 1 / 2 else if g = 1 then 1 / 4 else sc
            diff := fun _ _ => 1 } : Material.Mat ℚ).finalize
         mmap := fun _ => 0
         al := fun s => if s = 0 ∨ s = 1 then 0 else 1
         adjoint := false
         cutoff := 0
         fission := false
         sf := 0
         keff := 1 }
  net := fun g _ i _ _ => (g : ℚ) + i
  phi := fun g c => 1 + g + c
  alpha := alpha
  old := fun _ _ _ => 0
  fix := fun _ c l => decide (c = 1 ∧ l = 1 ∨ c = 2 ∧ l = 0)

theorem demoCmfd_full (sc alpha : ℚ) (h : 0 ≤ sc) : (demoCmfd sc alpha).Full := by
  refine ⟨⟨⟨show 1 ≤ 3 by decide, ?_⟩, ⟨_, rfl⟩, ?_, ?_, ?_⟩, show 0 < 2 by decide, rfl, rfl⟩
  · intro a h1 h2
    have : 1 ≤ a := h1
    have : a = 1 ∨ a = 2 := by omega
    rcases this with rfl | rfl <;> rfl
  · intro g gp m
    show (0 : ℚ) ≤ if g = gp then 1 / 2 else if g = 1 then 1 / 4 else sc
    split
    · norm_num
    · split
      · norm_num
      · exact h
  · intro c _
    exact show 0 < 1 by decide
  · exact show 0 ≤ 2 by decide

theorem demoCmfd_nz (sc alpha : ℚ) : (demoCmfd sc alpha).NZ := by
  have hp : ∀ g c, (0 : ℚ) < (demoCmfd sc alpha).phi g c := by
    intro g c
    show (0 : ℚ) < 1 + g + c
    positivity
  refine ⟨fun a i => ?_, fun g _ c _ => (hp g c).ne', fun g _ c _ l _ _ => (add_pos (hp _ _) (hp _ _)).ne'⟩
  show (if a = 0 then (1 : ℚ) + i else 1) ≠ 0
  split
  · positivity
  · norm_num

/-- The vector of the fluxes of `demoCmfd`. -/
def demoX (p : Nat) : ℚ := 1 + (p / 3 : Nat) + (p % 3 : Nat)

example : ∀ g < 2, ∀ c < 3, demoX (c + g * 3) = (demoCmfd 0 1).phi g c := by decide +kernel

example : (match (demoCmfd 0 1).sys.make insSort with
    | .ok (some C, bs) => bs.all (· = true) && decide ((List.range 6).map (C.multiply demoX)
        = [3/2, 3/2, 11/6, 7/4, 3/2, 19/12])
    | _ => false) = true := by decide +kernel

/-- C52 fails under relaxation before convergence: with factor one half the same data do not give the
    balance. -/
theorem C52_relaxed_counterexample :
    ∃ C bs, (demoCmfd 0 (1/2)).sys.make insSort = .ok (some C, bs) ∧
      C.multiply demoX 0 ≠ (∑ leak ∈ range 2, (demoCmfd 0 (1/2)).out 0 0 leak) / (demoCmfd 0 (1/2)).L.M.volume 0
        + (demoCmfd 0 (1/2)).L.local demoX 0 0 := by
  obtain ⟨C, h1, _, h4⟩ := C52_rows (demoCmfd 0 (1/2)) (demoCmfd_full _ _ (le_refl _)) (demoCmfd_nz _ _)
    insSort insSort_isSort
  refine ⟨C, _, h1, ?_⟩
  have h5 := h4 demoX (by decide +kernel) 0 (by decide) 0 (by decide)
  rw [show (0 + 0 * (demoCmfd 0 (1/2)).L.M.size) = 0 from rfl] at h5
  rw [h5]
  decide +kernel

/-- Run a test on a matrix that was built. -/
def tested (o : Out (Option (CSR ℚ) × List Bool)) (P : CSR ℚ → List Bool → Bool) : Bool :=
  match o with
  | .ok (some C, bs) => P C bs
  | _ => false

theorem tested_spec {o : Out (Option (CSR ℚ) × List Bool)} {P : CSR ℚ → List Bool → Bool}
    (h : tested o P = true) : ∃ C bs, o = .ok (some C, bs) ∧ P C bs = true := by
  unfold tested at h
  split at h
  · exact ⟨_, _, rfl, h⟩
  · simp at h

/-- C52 fails on rebuilding when scattering appears where there was none: `insert` refuses the entry,
    the return value is ignored and the row lacks the source. -/
theorem C52_rebuild_dropped :
    ∃ C bs C' bs' C'', (demoCmfd 0 1).sys.make insSort = .ok (some C, bs) ∧
      (demoCmfd (1/8) 1).reconstruct C insSort = .ok (some C', bs') ∧ false ∈ bs' ∧
      (demoCmfd (1/8) 1).sys.make insSort = .ok (some C'', (demoCmfd (1/8) 1).sys.ops.map fun _ => true) ∧
      C'.multiply demoX 0 ≠ C''.multiply demoX 0 := by
  obtain ⟨C, bs, h1, h2⟩ := tested_spec (o := (demoCmfd 0 1).sys.make insSort) (P := fun C _ =>
    tested ((demoCmfd (1/8) 1).reconstruct C insSort) fun C' bs' => bs'.contains false &&
      tested ((demoCmfd (1/8) 1).sys.make insSort) fun C'' _ =>
        decide (C'.multiply demoX 0 ≠ C''.multiply demoX 0)) (by decide +kernel)
  obtain ⟨C', bs', h3, h4⟩ := tested_spec h2
  rw [Bool.and_eq_true] at h4
  obtain ⟨C'', bs'', h5, h6⟩ := tested_spec h4.2
  obtain ⟨C0, k, _⟩ := C52_rows (demoCmfd (1/8) 1) (demoCmfd_full _ _ (by norm_num)) (demoCmfd_nz _ _)
    insSort insSort_isSort
  have e := h5
  rw [k, Out.ok.injEq, Prod.mk.injEq] at e
  rw [← e.2] at h5
  exact ⟨C, bs, C', bs', C'', h1, h3, by simpa using h4.1, h5, of_decide_eq_true h6⟩

end Detran.Diffusion
