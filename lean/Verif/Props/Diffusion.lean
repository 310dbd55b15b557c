import Verif.Lemmas.Diffusion
import Verif.Lemmas.DiffGrid
import Verif.Props.Material
import Mathlib.Algebra.Order.BigOperators.Ring.Finset
import Mathlib.Algebra.BigOperators.Field
import Mathlib.Tactic.Linarith
import Mathlib.Tactic.Positivity

/-!
# Properties C50, C51: the multigroup diffusion operators
-/

namespace Detran.Diffusion

open Detran.Matrix Finset

variable {K : Type} [Field K] [LinearOrder K] [IsStrictOrderedRing K]

/-! ## Specification -/

/-- The groups an operator acts on. -/
def Loss.active (D : Loss K) : Finset Nat :=
  if D.adjoint then range (D.cutoff + 1) else Ico D.cutoff D.mat.G

/-- Admissible input: finalised material with non-negative scattering, material map and cutoff in range,
    dimension matching the mesh. -/
structure Loss.OK (D : Loss K) : Prop where
  grid : D.M.WF
  fin : ∃ x : Material.Mat K, D.mat = x.finalize
  nn : ∀ g gp m, 0 ≤ D.mat.sigS g gp m
  mm : ∀ c < D.M.size, D.mmap c < D.mat.M
  cut : if D.adjoint then D.cutoff < D.mat.G else D.cutoff ≤ D.mat.G

/-- Specification: `J` is the diffusion current leaving cell `c` through face `leak`: there is a face flux
    for which Fick's law over the half cell gives `J`, and which on the other side satisfies Fick's law
    in the neighbour, or at the boundary the albedo relation between the partial currents
    `φ/4 ± J/2`. -/
def Loss.IsCurrent (D : Loss K) (g : Nat) (phi : Nat → K) (c leak : Nat) (J : K) : Prop :=
  ∃ fs, J = D.dc g c * (phi c - fs) / (D.M.width c (leak / 2) / 2) ∧
    if D.M.onBoundary c leak then fs / 4 - J / 2 = D.al leak * (fs / 4 + J / 2)
    else J = D.dc g (D.M.neighbour c leak) * (fs - phi (D.M.neighbour c leak))
      / (D.M.width (D.M.neighbour c leak) (leak / 2) / 2)

/-- Positive widths and diffusion coefficients, albedos between minus one and one. -/
structure Loss.Pos (D : Loss K) : Prop where
  h : ∀ a i, 0 < D.M.h a i
  dc : ∀ g m, 0 < D.mat.diff g m
  al : ∀ s, -1 ≤ D.al s ∧ D.al s ≤ 1

/-! ## Groups -/

theorem groups_spec (D : Loss K) (ok : D.OK) :
    D.groups.Nodup ∧ (∀ g, g ∈ D.groups ↔ g ∈ D.active) ∧
    (∀ g ∈ D.active, D.gi g < D.groups.length) ∧
    (∀ g ∈ D.active, ∀ g' ∈ D.active, D.gi g = D.gi g' → g = g') ∧
    (∀ q < D.groups.length, ∃ g ∈ D.active, D.gi g = q) ∧ (∀ g ∈ D.active, g < D.mat.G) := by
  have hc := ok.cut
  unfold Loss.groups Loss.active Loss.gi
  cases hadj : D.adjoint with
  | false =>
    rw [hadj] at hc
    simp only [Bool.false_eq_true, if_false] at hc ⊢
    rcases Nat.lt_or_ge D.cutoff D.mat.G with h | h
    · have e := Material.groups_up D.cutoff D.mat.G false h
      unfold Material.groups at e
      rw [e]
      simp only [Bool.false_eq_true, if_false, add_zero, List.length_range', List.mem_range'_1, mem_Ico]
      refine ⟨List.nodup_range', fun g => by omega, fun g hg => by omega, fun g hg g' hg' => by omega,
        fun q hq => ⟨D.cutoff + q, by omega, by omega⟩, fun g hg => hg.2⟩
    · have e : (D.cutoff : Int) = D.mat.G := by omega
      rw [e]
      have := (Util.C07_range_self (D.mat.G : Int)).1
      rw [this]
      simp only [List.map_nil, List.nodup_nil, List.not_mem_nil, false_iff, mem_Ico, List.length_nil]
      refine ⟨trivial, fun g => by omega, fun g hg => by omega, fun g hg => by omega,
        fun q hq => by omega, fun g hg => hg.2⟩
  | true =>
    rw [hadj] at hc
    simp only [if_true] at hc ⊢
    obtain ⟨h1, h2⟩ := Util.C07_range_descending (D.cutoff : Int) (-1) false (by omega)
    have hl : (Util.range (D.cutoff : Int) (-1) false).length = D.cutoff + 1 := by
      unfold Util.range
      rw [Util.rangeLoop_length]
      simp
      omega
    have hpos : ∀ x ∈ Util.range (D.cutoff : Int) (-1) false, 0 ≤ x := by
      intro x hx
      have := ((h2 x).1 hx).2
      simp at this
      omega
    rw [List.length_map, hl]
    simp only [mem_range]
    refine ⟨?_, fun g => ?_, fun g hg => hg, fun g _ g' _ h => h, fun q hq => ⟨q, hq, rfl⟩, fun g hg => by omega⟩
    · refine List.Nodup.map_on (fun x hx y hy h => ?_) (h1.imp (fun h => (ne_of_gt h)))
      have := hpos x hx
      have := hpos y hy
      omega
    · rw [List.mem_map]
      constructor
      · rintro ⟨x, hx, rfl⟩
        have := ((h2 x).1 hx).1
        have := hpos x hx
        omega
      · intro hg
        refine ⟨(g : Int), (h2 _).2 ⟨by omega, ?_⟩, by simp⟩
        simp
        omega

theorem mem_groups_incl (a b x : Nat) :
    x ∈ Material.groups a b true ↔ min a b ≤ x ∧ x ≤ max a b := by
  rcases Nat.lt_or_ge a b with h | h
  · rw [Material.groups_up a b true h, List.mem_range'_1]
    simp
    omega
  · rw [Material.groups_down a b h, List.mem_reverse, List.mem_range'_1]
    omega

theorem nodup_groups_incl (a b : Nat) : (Material.groups a b true).Nodup := by
  rcases Nat.lt_or_ge a b with h | h
  · rw [Material.groups_up a b true h]
    exact List.nodup_range'
  · rw [Material.groups_down a b h, List.nodup_reverse]
    exact List.nodup_range'

/-- The scatter loop visits active groups other than `g`, and every one with a nonzero coefficient. -/
theorem scat_spec (D : Loss K) (ok : D.OK) (g : Nat) (hg : g ∈ D.active) :
    (D.scat g).Nodup ∧ (∀ gp ∈ D.scat g, gp ∈ D.active ∧ gp ≠ g) ∧
    (D.sf = 0 → ∀ gp ∈ D.active, gp ≠ g → gp ∉ D.scat g → ∀ c < D.M.size, D.sc g gp c = 0) := by
  have hgG := (groups_spec D ok).2.2.2.2.2 g hg
  obtain ⟨x, hx⟩ := ok.fin
  have eG : D.mat.G = x.G := by rw [hx]; rfl
  have eM : D.mat.M = x.M := by rw [hx]; rfl
  have eS : D.mat.sigS = x.sigS := by rw [hx]; rfl
  have zero : ∀ gp < D.mat.G, gp ≠ g → gp ∉ Material.scatterPartners x.sigS x.G x.M g D.adjoint →
      ∀ c < D.M.size, D.sc g gp c = 0 := by
    intro gp hgp hne hnp c hc
    have hm := ok.mm c hc
    have : ¬ 0 < (if D.adjoint then x.sigS gp g (D.mmap c) else x.sigS g gp (D.mmap c)) := fun hpos =>
      hnp (.inr ⟨by omega, D.mmap c, by omega, hpos⟩)
    unfold Loss.sc
    rw [eS]
    split at this
    · rename_i h
      rw [if_pos h, neg_eq_zero]
      refine le_antisymm (not_lt.1 this) ?_
      rw [← eS]
      exact ok.nn _ _ _
    · rename_i h
      rw [if_neg h, neg_eq_zero]
      refine le_antisymm (not_lt.1 this) ?_
      rw [← eS]
      exact ok.nn _ _ _
  unfold Loss.scat
  by_cases hsf : D.sf = 0
  · simp only [hsf, if_true, true_imp_iff]
    have hact := hg
    have hcut := ok.cut
    unfold Loss.active at hact ⊢
    rw [hx] at hgG hcut hact ⊢
    have eG' : x.finalize.G = x.G := rfl
    rw [eG'] at hgG hcut hact ⊢
    rw [eG] at zero
    cases hadj : D.adjoint with
    | false =>
      rw [hadj] at hact hcut zero
      simp only [Bool.false_eq_true, if_false, mem_Ico] at hact hcut ⊢
      obtain ⟨⟨m1, l1⟩, m2, l2⟩ := Material.C21_bounds_forward x g hgG
      have h1 : x.finalize.lower g false ≤ g := l1 (.inl rfl)
      have h2 : g ≤ x.finalize.upper g false := l2 (.inl rfl)
      have h3 : x.finalize.upper g false < x.G := by
        rcases m2 with e | e
        · omega
        · exact e.1
      have hmem := mem_groups_incl (max (x.finalize.lower g false) D.cutoff) (x.finalize.upper g false)
      have hnd := nodup_groups_incl (max (x.finalize.lower g false) D.cutoff) (x.finalize.upper g false)
      unfold Material.groups at hmem hnd
      refine ⟨hnd.filter _, fun gp hgp => ?_, fun gp hgp hne hns c hc => ?_⟩
      · rw [List.mem_filter, hmem] at hgp
        simp only [ne_eq, decide_not, Bool.not_eq_true', decide_eq_false_iff_not] at hgp
        omega
      · refine zero gp (by omega) hne (fun hp => hns ?_) c hc
        have := l1 hp
        have := l2 hp
        rw [List.mem_filter, hmem]
        simp only [ne_eq, decide_not, Bool.not_eq_true', decide_eq_false_iff_not]
        omega
    | true =>
      rw [hadj] at hact hcut zero
      simp only [if_true, mem_range] at hact hcut ⊢
      obtain ⟨⟨m1, l1⟩, m2, l2⟩ := Material.C21_bounds_adjoint x g hgG
      have h1 : g ≤ x.finalize.lower g true := l1 (.inl rfl)
      have h2 : x.finalize.upper g true ≤ g := l2 (.inl rfl)
      have hmem := mem_groups_incl (min (x.finalize.lower g true) D.cutoff) (x.finalize.upper g true)
      have hnd := nodup_groups_incl (min (x.finalize.lower g true) D.cutoff) (x.finalize.upper g true)
      unfold Material.groups at hmem hnd
      refine ⟨hnd.filter _, fun gp hgp => ?_, fun gp hgp hne hns c hc => ?_⟩
      · rw [List.mem_filter, hmem] at hgp
        simp only [ne_eq, decide_not, Bool.not_eq_true', decide_eq_false_iff_not] at hgp
        omega
      · refine zero gp (by omega) hne (fun hp => hns ?_) c hc
        have := l1 hp
        have := l2 hp
        rw [List.mem_filter, hmem]
        simp only [ne_eq, decide_not, Bool.not_eq_true', decide_eq_false_iff_not]
        omega
  · simp [hsf]

/-! ## The matrix -/

theorem wf_loss (D : Loss K) (ok : D.OK) : D.sys.WF := by
  obtain ⟨h1, h2, h3, h4, h5, h6⟩ := groups_spec D ok
  refine ⟨h1, ?_, ?_, ?_, ?_, ?_, ?_, ?_⟩
  · exact fun g hg g' hg' => h4 g ((h2 g).1 hg) g' ((h2 g').1 hg')
  · exact fun g hg => h3 g ((h2 g).1 hg)
  · intro q hq
    obtain ⟨g, hg, e⟩ := h5 q hq
    exact ⟨g, (h2 g).2 hg, e⟩
  · intro g hg c hc
    have := faces_length D.M ok.grid hc (D.nbOf g c) (fun l _ hb => by simp [Loss.nbOf, hb])
    show ((List.range 6).filterMap (D.nbOf g c)).length + D.groups.length ≤ 1 + 2 * D.M.dim + D.groups.length
    omega
  · intro g hg c hc e he
    obtain ⟨l, hl, he⟩ := List.mem_filterMap.1 he
    unfold Loss.nbOf at he
    by_cases hb : D.M.onBoundary c l = true
    · simp [hb] at he
    · rw [if_neg hb, Option.some.injEq] at he
      subst he
      exact (neighbour_spec D.M hc (List.mem_range.1 hl) (by simpa using hb)).1
  · exact fun g hg => (scat_spec D ok g ((h2 g).1 hg)).1
  · intro g hg gp hgp
    have := (scat_spec D ok g ((h2 g).1 hg)).2.1 gp hgp
    exact ⟨(h2 gp).2 this.1, this.2⟩

/-- Leakage coefficient times the flux difference at a face. -/
def Loss.faceTerm (D : Loss K) (g : Nat) (phi : Nat → K) (c leak : Nat) : K :=
  if D.M.onBoundary c leak then D.dtilde g c leak * phi c
  else D.dtilde g c leak * (phi c - phi (D.M.neighbour c leak))

theorem sum_filterMap {α β : Type} (l : List α) (f : α → Option β) (F : β → K) :
    ((l.filterMap f).map F).sum = (l.map (fun a => (f a).elim 0 F)).sum := by
  induction l with
  | nil => simp
  | cons a l ih =>
    rw [List.filterMap_cons]
    cases h : f a with
    | none => simp [h, ih]
    | some b => simp [h, ih]

theorem range6 (f : Nat → K) : ((List.range 6).map f).sum = f 0 + f 1 + f 2 + f 3 + f 4 + f 5 := by
  simp [List.range_succ]
  ring

theorem face_row (D : Loss K) (g : Nat) (phi : Nat → K) (c : Nat) :
    (((List.range 6).filterMap (D.nbOf g c)).map (fun e => e.2 * phi e.1)).sum + D.jnet g c * phi c
      = ∑ leak ∈ range 6, D.faceTerm g phi c leak / D.M.width c (leak / 2) := by
  rw [sum_filterMap, ← Material.sum_map_range, range6, range6]
  have key : ∀ leak, (D.nbOf g c leak).elim 0 (fun b => b.2 * phi b.1)
      = D.faceTerm g phi c leak / D.M.width c (leak / 2)
        - D.dtilde g c leak * phi c / D.M.width c (leak / 2) := by
    intro leak
    unfold Loss.nbOf Loss.faceTerm
    by_cases hb : D.M.onBoundary c leak = true
    · simp [hb]
    · simp only [hb, Bool.false_eq_true, if_false, Option.elim_some]
      ring
  rw [key, key, key, key, key, key]
  unfold Loss.jnet
  norm_num only
  ring

/-- The coupling coefficients are those of the diffusion current. -/
theorem isCurrent_iff (D : Loss K) (hp : D.Pos) (g : Nat) (phi : Nat → K) (c leak : Nat) (J : K) :
    D.IsCurrent g phi c leak J ↔ J = D.faceTerm g phi c leak := by
  have hd : 0 < D.dc g c := hp.dc _ _
  have hh : 0 < D.M.width c (leak / 2) := hp.h _ _
  unfold Loss.IsCurrent Loss.faceTerm Loss.dtilde
  by_cases hb : D.M.onBoundary c leak = true
  · simp only [hb, if_true]
    unfold dBoundary
    obtain ⟨a1, a2⟩ := hp.al leak
    generalize D.dc g c = d at *
    generalize D.M.width c (leak / 2) = h at *
    generalize D.al leak = al at *
    have hden : 0 < 4 * d * (1 + al) + (1 - al) * h := by
      rcases eq_or_lt_of_le a1 with e | e
      · rw [← e]
        norm_num
        exact hh
      · have h1 : 0 < 4 * d * (1 + al) := mul_pos (by linarith) (by linarith)
        have h2 : 0 ≤ (1 - al) * h := mul_nonneg (by linarith) hh.le
        linarith
    have hden' := hden.ne'
    constructor
    · rintro ⟨fs, e1, e2⟩
      rw [eq_div_iff (by positivity)] at e1
      rw [div_mul_eq_mul_div, eq_div_iff hden']
      linear_combination 2 * (1 - al) * e1 - 8 * d * e2
    · intro e
      refine ⟨phi c - J * h / (2 * d), ?_, ?_⟩
      · field_simp
        ring
      · rw [div_mul_eq_mul_div, eq_div_iff hden'] at e
        field_simp
        linear_combination -e
  · simp only [hb, Bool.false_eq_true, if_false]
    unfold dInterior
    have hdn : 0 < D.dc g (D.M.neighbour c leak) := hp.dc _ _
    have hhn : 0 < D.M.width (D.M.neighbour c leak) (leak / 2) := hp.h _ _
    generalize D.dc g c = d at *
    generalize D.dc g (D.M.neighbour c leak) = dn at *
    generalize D.M.width c (leak / 2) = h at *
    generalize D.M.width (D.M.neighbour c leak) (leak / 2) = hn at *
    generalize phi (D.M.neighbour c leak) = pn
    have hden : hn * d + h * dn ≠ 0 := by positivity
    constructor
    · rintro ⟨fs, e1, e2⟩
      rw [eq_div_iff (by positivity)] at e1 e2
      rw [div_mul_eq_mul_div, eq_div_iff hden]
      linear_combination 2 * dn * e1 + 2 * d * e2
    · intro e
      refine ⟨phi c - J * h / (2 * d), ?_, ?_⟩
      · field_simp
        ring
      · rw [div_mul_eq_mul_div, eq_div_iff hden] at e
        field_simp
        linear_combination e

/-- Position of a cell and group in the vectors. -/
def Loss.pos (D : Loss K) (g c : Nat) : Nat := c + (if D.adjoint then g else g - D.cutoff) * D.M.size

/-- Scattering into `g` from `gp` (out of `g` into `gp` in adjoint mode). -/
def Loss.scatXs (D : Loss K) (g gp c : Nat) : K :=
  if D.adjoint then D.mat.sigS gp g (D.mmap c) else D.mat.sigS g gp (D.mmap c)

/-- Fission production in `g` from `gp` (transposed in adjoint mode). -/
def Loss.fisXs (D : Loss K) (g gp c : Nat) : K :=
  if D.adjoint then D.mat.chi gp (D.mmap c) * D.mat.nuSigF g (D.mmap c)
  else D.mat.chi g (D.mmap c) * D.mat.nuSigF gp (D.mmap c)

/-- Everything but leakage: total removal less scattering, less fission divided by k. -/
def Loss.local (D : Loss K) (x : Nat → K) (g c : Nat) : K :=
  D.mat.sigT g (D.mmap c) * x (D.pos g c)
    - (if D.sf = 0 then ∑ gp ∈ D.active, D.scatXs g gp c * x (D.pos gp c) else 0)
    - (if D.fission = true ∧ D.sf = 0 then (∑ gp ∈ D.active, D.fisXs g gp c * x (D.pos gp c)) / D.keff else 0)

theorem sum_list_active (D : Loss K) (ok : D.OK) (F : Nat → K) :
    (D.groups.map F).sum = ∑ g ∈ D.active, F g := by
  obtain ⟨h1, h2, _⟩ := groups_spec D ok
  rw [← List.sum_toFinset F h1]
  refine Finset.sum_congr ?_ fun _ _ => rfl
  ext g
  rw [List.mem_toFinset, h2]

theorem rows (D : Loss K) (ok : D.OK) (srt : List (Trip K) → List (Trip K)) (hs : IsSort srt) :
    ∃ C, D.sys.make srt = .ok (some C, D.sys.ops.map fun _ => true) ∧
      C.m = D.active.card * D.M.size ∧ C.n = D.active.card * D.M.size ∧
      ∀ x, ∀ g ∈ D.active, ∀ c < D.M.size,
        C.multiply x (D.pos g c) = (∑ leak ∈ range 6,
          D.faceTerm g (fun c => x (D.pos g c)) c leak / D.M.width c (leak / 2)) + D.local x g c := by
  obtain ⟨h1, h2, _⟩ := groups_spec D ok
  have hlen : D.groups.length = D.active.card := by
    rw [← List.toFinset_card_of_nodup h1]
    congr 1
    ext g
    rw [List.mem_toFinset, h2]
  obtain ⟨C, e1, e2, e3, e4⟩ := (wf_loss D ok).make_ok srt hs
  have em : D.sys.m = D.active.card * D.M.size := by
    rw [← hlen]; rfl
  refine ⟨C, e1, e2.trans em, e3.trans em, fun x g hg c hc => ?_⟩
  have e := e4 x g ((h2 g).2 hg) c hc
  have hpos : ∀ g c, D.sys.row g c = D.pos g c := fun _ _ => rfl
  rw [hpos] at e
  rw [e]
  unfold Sys.rowSum
  have hsc : (((D.sys).scat g).map (fun gp => D.sys.sc g gp c * x (D.sys.row gp c))).sum
      = if D.sf = 0 then - ∑ gp ∈ D.active.erase g, D.scatXs g gp c * x (D.pos gp c) else 0 := by
    show ((D.scat g).map (fun gp => D.sc g gp c * x (D.pos gp c))).sum = _
    obtain ⟨s1, s2, s3⟩ := scat_spec D ok g hg
    rw [← List.sum_toFinset _ s1]
    split
    · rename_i hsf
      rw [← Finset.sum_neg_distrib]
      rw [Finset.sum_congr rfl (g := fun gp => D.sc g gp c * x (D.pos gp c)) (s₁ := D.active.erase g)
        (fun gp _ => by unfold Loss.sc Loss.scatXs; split <;> ring)]
      refine Finset.sum_subset ?_ ?_
      · intro gp hgp
        have := s2 gp (List.mem_toFinset.1 hgp)
        rw [Finset.mem_erase]
        exact ⟨this.2, this.1⟩
      · intro gp hgp hn
        rw [Finset.mem_erase] at hgp
        rw [s3 hsf gp hgp.2 hgp.1 (fun h => hn (List.mem_toFinset.2 h)) c hc, zero_mul]
    · rename_i hsf
      unfold Loss.scat
      simp [hsf]
  have hfi : D.sys.fisSum x g c = if D.fission = true ∧ D.sf = 0 then
          - ((∑ gp ∈ D.active, D.fisXs g gp c * x (D.pos gp c)) / D.keff) else 0 := by
    by_cases hf : D.fission = true ∧ D.sf = 0
    · rw [if_pos hf]
      have : D.sys.fis = some D.fis := by simp [Loss.sys, hf.1, hf.2]
      unfold Sys.fisSum
      rw [this]
      show (D.groups.map (fun gp => D.fis g gp c * x (D.pos gp c))).sum = _
      rw [sum_list_active D ok, Finset.sum_div, ← Finset.sum_neg_distrib]
      refine Finset.sum_congr rfl fun gp _ => ?_
      unfold Loss.fis Loss.fisXs
      split <;> ring
    · rw [if_neg hf]
      have : D.sys.fis = none := by
        unfold Loss.sys
        simp only [ite_eq_right_iff]
        intro h
        simp at h
        exact absurd h hf
      unfold Sys.fisSum
      rw [this]
  rw [hsc, hfi]
  have hf := face_row D g (fun c => x (D.pos g c)) c
  rw [← hf]
  have hnb : ((D.sys.nb g c).map (fun e => e.2 * x (D.sys.row g e.1))).sum
      = (((List.range 6).filterMap (D.nbOf g c)).map (fun e => e.2 * x (D.pos g e.1))).sum := rfl
  have hdg : D.sys.diag g c * x (D.sys.row g c) = (D.jnet g c + D.removal g c) * x (D.pos g c) := rfl
  rw [hnb, hdg]
  unfold Loss.local Loss.removal
  by_cases hsf : D.sf = 0
  · simp only [hsf, if_true]
    rw [← Finset.add_sum_erase _ (fun gp => D.scatXs g gp c * x (D.pos gp c)) hg]
    have : D.scatXs g g c = D.mat.sigS g g (D.mmap c) := by unfold Loss.scatXs; split <;> rfl
    rw [this]
    split <;> ring
  · simp only [hsf, if_false, and_false]
    ring

/-! ## C50  the loss operator -/

/-- C50: for every admissible input the operator is built with every `insert` succeeding and assembly
    defined, and its product with any vector is, in each active group and cell, the diffusion currents
    through the six faces divided by the cell's widths, plus total removal, less scattering over all
    active groups and fission over k. -/
theorem C50_rows (D : Loss K) (ok : D.OK) (hp : D.Pos) (srt : List (Trip K) → List (Trip K))
    (hs : IsSort srt) :
    ∃ C, D.sys.make srt = .ok (some C, D.sys.ops.map fun _ => true) ∧
      C.m = D.active.card * D.M.size ∧ C.n = D.active.card * D.M.size ∧
      ∀ x, ∀ g ∈ D.active, ∀ c < D.M.size, ∀ J : Nat → K,
        (∀ leak < 6, D.IsCurrent g (fun c => x (D.pos g c)) c leak (J leak)) →
        C.multiply x (D.pos g c) =
          (∑ leak ∈ range 6, J leak / D.M.width c (leak / 2)) + D.local x g c := by
  obtain ⟨C, h1, h2, h3, h4⟩ := rows D ok srt hs
  refine ⟨C, h1, h2, h3, fun x g hg c hc J hJ => ?_⟩
  rw [h4 x g hg c hc]
  congr 1
  refine Finset.sum_congr rfl fun l hl => ?_
  rw [(isCurrent_iff D hp g _ c l _).1 (hJ l (mem_range.1 hl))]

/-- C50: such currents exist and are unique. -/
theorem C50_current_unique (D : Loss K) (hp : D.Pos) (g : Nat) (phi : Nat → K) (c leak : Nat) :
    ∃! J, D.IsCurrent g phi c leak J :=
  ⟨D.faceTerm g phi c leak, (isCurrent_iff D hp g phi c leak _).2 rfl,
    fun _ h => (isCurrent_iff D hp g phi c leak _).1 h⟩

/-- C50: faces.  Of cell `(i, j, k)` the faces 0 to 5 are west, east, south, north, bottom and top; the
    cell across is the one with that index moved by one, and a face is on the boundary exactly when there
    is none. -/
theorem C50_faces (M : Grid K) (i j k : Nat) (hi : i < M.nx) (hj : j < M.ny) (hk : k < M.nz) :
    let c := M.index i j k
    (M.onBoundary c 0 = decide (i = 0)) ∧ (M.onBoundary c 1 = decide (i + 1 = M.nx)) ∧
    (M.onBoundary c 2 = decide (j = 0)) ∧ (M.onBoundary c 3 = decide (j + 1 = M.ny)) ∧
    (M.onBoundary c 4 = decide (k = 0)) ∧ (M.onBoundary c 5 = decide (k + 1 = M.nz)) ∧
    M.neighbour c 0 = M.index (i - 1) j k ∧ M.neighbour c 1 = M.index (i + 1) j k ∧
    M.neighbour c 2 = M.index i (j - 1) k ∧ M.neighbour c 3 = M.index i (j + 1) k ∧
    M.neighbour c 4 = M.index i j (k - 1) ∧ M.neighbour c 5 = M.index i j (k + 1) ∧
    M.width c 0 = M.h 0 i ∧ M.width c 1 = M.h 1 j ∧ M.width c 2 = M.h 2 k := by
  intro c
  obtain ⟨h0, h1, h2⟩ := coord_index M (k := k) hi hj
  have n0 := neighbour_low M 0 (by omega) (s := i) (u := j) (v := k) hi hj hk
  have n1 := neighbour_high M 0 (by omega) (s := i) (u := j) (v := k) hi hj hk
  have n2 := neighbour_low M 1 (by omega) (s := j) (u := i) (v := k) hj hi hk
  have n3 := neighbour_high M 1 (by omega) (s := j) (u := i) (v := k) hj hi hk
  have n4 := neighbour_low M 2 (by omega) (s := k) (u := i) (v := j) hk hi hj
  have n5 := neighbour_high M 2 (by omega) (s := k) (u := i) (v := j) hk hi hj
  refine ⟨?_, ?_, ?_, ?_, ?_, ?_, n0, n1, n2, n3, n4, n5, ?_, ?_, ?_⟩
  · rw [boundary_low M c 0, h0]
  · have := boundary_high M c 0
    rw [h0] at this
    rw [this]
    show decide (i = M.nx - 1) = _
    rw [decide_eq_decide]
    omega
  · rw [boundary_low M c 1, h1]
  · have := boundary_high M c 1
    rw [h1] at this
    rw [this]
    show decide (j = M.ny - 1) = _
    rw [decide_eq_decide]
    omega
  · rw [boundary_low M c 2, h2]
  · have := boundary_high M c 2
    rw [h2] at this
    rw [this]
    show decide (k = M.nz - 1) = _
    rw [decide_eq_decide]
    omega
  · unfold Grid.width; rw [h0]
  · unfold Grid.width; rw [h1]
  · unfold Grid.width; rw [h2]

/-- Bilinear form of the leakage along one axis. -/
def Loss.form (D : Loss K) (g a : Nat) (phi psi : Nat → K) : K :=
  ∑ v ∈ range (D.M.count (other a).2), ∑ u ∈ range (D.M.count (other a).1),
    (D.M.h (other a).1 u * D.M.h (other a).2 v) *
    ((∑ s ∈ range (D.M.count a - 1),
        dInterior (D.dc g (D.M.cellA a s u v)) (D.dc g (D.M.cellA a (s + 1) u v)) (D.M.h a s) (D.M.h a (s + 1))
        * (phi (D.M.cellA a (s + 1) u v) - phi (D.M.cellA a s u v))
        * (psi (D.M.cellA a (s + 1) u v) - psi (D.M.cellA a s u v)))
      + dBoundary (D.dc g (D.M.cellA a 0 u v)) (D.al (2 * a)) (D.M.h a 0)
        * phi (D.M.cellA a 0 u v) * psi (D.M.cellA a 0 u v)
      + dBoundary (D.dc g (D.M.cellA a (D.M.count a - 1) u v)) (D.al (2 * a + 1)) (D.M.h a (D.M.count a - 1))
        * phi (D.M.cellA a (D.M.count a - 1) u v) * psi (D.M.cellA a (D.M.count a - 1) u v))

theorem volume_axis (M : Grid K) (c a : Nat) (ha : a < 3) :
    M.volume c = M.width c a * (M.width c (other a).1 * M.width c (other a).2) := by
  unfold Grid.volume
  interval_cases a <;> simp only [other] <;> ring

theorem dInterior_symm (a b c d : K) : dInterior a b c d = dInterior b a d c := by
  unfold dInterior
  congr 1
  · ring
  · ring

/-- Volume-weighted leakage along an axis, in weak form. -/
theorem axis_form (D : Loss K) (hh : ∀ a i, D.M.h a i ≠ 0) (hpos : 0 < D.M.size) (g a : Nat) (ha : a < 3)
    (phi psi : Nat → K) :
    ∑ c ∈ range D.M.size, D.M.volume c * psi c *
        ((D.faceTerm g phi c (2 * a) + D.faceTerm g phi c (2 * a + 1)) / D.M.width c a)
      = D.form g a phi psi := by
  obtain ⟨n, hn⟩ : ∃ n, D.M.count a = n + 1 := ⟨D.M.count a - 1, by have := coord_lt D.M hpos a; omega⟩
  rw [sum_cells D.M a ha]
  unfold Loss.form
  refine Finset.sum_congr rfl fun v hv => Finset.sum_congr rfl fun u hu => ?_
  rw [mem_range] at hv hu
  have hl := line_form n (fun s => phi (D.M.cellA a s u v)) (fun s => psi (D.M.cellA a s u v))
    (fun s => dInterior (D.dc g (D.M.cellA a s u v)) (D.dc g (D.M.cellA a (s + 1) u v)) (D.M.h a s)
      (D.M.h a (s + 1)))
    (dBoundary (D.dc g (D.M.cellA a 0 u v)) (D.al (2 * a)) (D.M.h a 0))
    (dBoundary (D.dc g (D.M.cellA a n u v)) (D.al (2 * a + 1)) (D.M.h a n))
  rw [hn, Nat.add_sub_cancel, ← hl, Finset.mul_sum]
  refine Finset.sum_congr rfl fun s hs => ?_
  rw [mem_range] at hs
  have hs' : s < D.M.count a := by omega
  obtain ⟨c1, c2, c3, c4⟩ := cellA_coord D.M a ha hs' hu hv
  have hw : D.M.width (D.M.cellA a s u v) a = D.M.h a s := by unfold Grid.width; rw [c1]
  have hlo : D.faceTerm g phi (D.M.cellA a s u v) (2 * a)
      = if s = 0 then dBoundary (D.dc g (D.M.cellA a 0 u v)) (D.al (2 * a)) (D.M.h a 0) * phi (D.M.cellA a s u v)
        else dInterior (D.dc g (D.M.cellA a (s - 1) u v)) (D.dc g (D.M.cellA a (s - 1 + 1) u v)) (D.M.h a (s - 1))
          (D.M.h a (s - 1 + 1)) * (phi (D.M.cellA a s u v) - phi (D.M.cellA a (s - 1) u v)) := by
    unfold Loss.faceTerm Loss.dtilde
    rw [boundary_low, c1, (leak_half a).1, hw]
    by_cases h0 : s = 0
    · simp [h0]
    · simp only [h0, decide_false, Bool.false_eq_true, if_false]
      rw [neighbour_low D.M a ha hs' hu hv]
      have c1' := (cellA_coord D.M a ha (s := s - 1) (by omega) hu hv).1
      have hw' : D.M.width (D.M.cellA a (s - 1) u v) a = D.M.h a (s - 1) := by unfold Grid.width; rw [c1']
      rw [hw', dInterior_symm, show s - 1 + 1 = s by omega]
  have hhi : D.faceTerm g phi (D.M.cellA a s u v) (2 * a + 1)
      = if s = n then dBoundary (D.dc g (D.M.cellA a n u v)) (D.al (2 * a + 1)) (D.M.h a n) * phi (D.M.cellA a s u v)
        else dInterior (D.dc g (D.M.cellA a s u v)) (D.dc g (D.M.cellA a (s + 1) u v)) (D.M.h a s)
          (D.M.h a (s + 1)) * (phi (D.M.cellA a s u v) - phi (D.M.cellA a (s + 1) u v)) := by
    unfold Loss.faceTerm Loss.dtilde
    rw [boundary_high, c1, (leak_half a).2.2.1, hw, hn, Nat.add_sub_cancel]
    by_cases h0 : s = n
    · simp [h0]
    · simp only [h0, decide_false, Bool.false_eq_true, if_false]
      rw [neighbour_high D.M a ha hs' hu hv]
      have c1' := (cellA_coord D.M a ha (s := s + 1) (by omega) hu hv).1
      have hw' : D.M.width (D.M.cellA a (s + 1) u v) a = D.M.h a (s + 1) := by unfold Grid.width; rw [c1']
      rw [hw']
  rw [hlo, hhi, volume_axis D.M _ a ha, hw]
  have hw1 : D.M.width (D.M.cellA a s u v) (other a).1 = D.M.h (other a).1 u := by unfold Grid.width; rw [c2]
  have hw2 : D.M.width (D.M.cellA a s u v) (other a).2 = D.M.h (other a).2 v := by unfold Grid.width; rw [c3]
  rw [hw1, hw2]
  have := hh a s
  generalize (if s = 0 then _ else _ : K) = A
  generalize (if s = n then _ else _ : K) = B
  field_simp

/-- All six faces. -/
theorem leak_form (D : Loss K) (hh : ∀ a i, D.M.h a i ≠ 0) (hpos : 0 < D.M.size) (g : Nat)
    (phi psi : Nat → K) :
    ∑ c ∈ range D.M.size, D.M.volume c * psi c *
        ∑ leak ∈ range 6, D.faceTerm g phi c leak / D.M.width c (leak / 2)
      = D.form g 0 phi psi + D.form g 1 phi psi + D.form g 2 phi psi := by
  rw [← axis_form D hh hpos g 0 (by omega), ← axis_form D hh hpos g 1 (by omega),
    ← axis_form D hh hpos g 2 (by omega), ← Finset.sum_add_distrib, ← Finset.sum_add_distrib]
  refine Finset.sum_congr rfl fun c _ => ?_
  rw [← Material.sum_map_range, range6]
  norm_num only
  ring

theorem form_symm (D : Loss K) (g a : Nat) (phi psi : Nat → K) : D.form g a phi psi = D.form g a psi phi := by
  unfold Loss.form
  refine Finset.sum_congr rfl fun v _ => Finset.sum_congr rfl fun u _ => ?_
  congr 1
  congr 1
  · congr 1
    · exact Finset.sum_congr rfl fun s _ => by ring
    · ring
  · ring

/-- A vector with flux `phi` in group `g` and nothing elsewhere. -/
def Loss.inGroup (D : Loss K) (g : Nat) (phi : Nat → K) (p : Nat) : K :=
  if p / D.M.size = (if D.adjoint then g else g - D.cutoff) then phi (p % D.M.size) else 0

theorem inGroup_pos (D : Loss K) (ok : D.OK) (g gp c : Nat) (phi : Nat → K) (hg : g ∈ D.active)
    (hgp : gp ∈ D.active) (hc : c < D.M.size) :
    D.inGroup g phi (D.pos gp c) = if gp = g then phi c else 0 := by
  have hinj := (groups_spec D ok).2.2.2.1 gp hgp g hg
  unfold Loss.gi at hinj
  unfold Loss.inGroup Loss.pos
  rw [Nat.add_mul_div_right _ _ (by omega), Nat.div_eq_of_lt hc, Nat.zero_add, Nat.add_mul_mod_self_right,
    Nat.mod_eq_of_lt hc]
  by_cases h : gp = g
  · rw [if_pos (by rw [h]), if_pos h]
  · rw [if_neg (fun e => h (hinj e)), if_neg h]

/-- What `local` does to a single group. -/
theorem local_inGroup (D : Loss K) (ok : D.OK) (g c : Nat) (phi : Nat → K) (hg : g ∈ D.active)
    (hc : c < D.M.size) :
    D.local (D.inGroup g phi) g c = (D.removal g c
      - (if D.fission = true ∧ D.sf = 0 then
          D.mat.chi g (D.mmap c) * D.mat.nuSigF g (D.mmap c) / D.keff else 0)) * phi c := by
  have key : ∀ F : Nat → K, ∑ gp ∈ D.active, F gp * D.inGroup g phi (D.pos gp c) = F g * phi c := by
    intro F
    rw [Finset.sum_eq_single g]
    · rw [inGroup_pos D ok g g c phi hg hg hc, if_pos rfl]
    · intro gp hgp hne
      rw [inGroup_pos D ok g gp c phi hg hgp hc, if_neg hne, mul_zero]
    · exact fun h => absurd hg h
  unfold Loss.local Loss.removal
  rw [key, key, inGroup_pos D ok g g c phi hg hg hc, if_pos rfl]
  have h1 : D.scatXs g g c = D.mat.sigS g g (D.mmap c) := by unfold Loss.scatXs; split <;> rfl
  have h2 : D.fisXs g g c = D.mat.chi g (D.mmap c) * D.mat.nuSigF g (D.mmap c) := by
    unfold Loss.fisXs; split <;> rfl
  rw [h1, h2]
  split <;> split <;> ring

/-- Product of the group block with a cell flux, weighted by volume and `psi`. -/
def Loss.energy (D : Loss K) (C : CSR K) (g : Nat) (phi psi : Nat → K) : K :=
  ∑ c ∈ range D.M.size, D.M.volume c * psi c * C.multiply (D.inGroup g phi) (D.pos g c)

theorem energy_eq (D : Loss K) (ok : D.OK) (hh : ∀ a i, D.M.h a i ≠ 0) (hpos : 0 < D.M.size)
    (C : CSR K) (hC : ∀ x, ∀ g ∈ D.active, ∀ c < D.M.size,
        C.multiply x (D.pos g c) = (∑ leak ∈ range 6,
          D.faceTerm g (fun c => x (D.pos g c)) c leak / D.M.width c (leak / 2)) + D.local x g c)
    (g : Nat) (hg : g ∈ D.active) (phi psi : Nat → K) :
    D.energy C g phi psi = D.form g 0 phi psi + D.form g 1 phi psi + D.form g 2 phi psi
      + ∑ c ∈ range D.M.size, D.M.volume c * (D.removal g c
        - (if D.fission = true ∧ D.sf = 0 then
          D.mat.chi g (D.mmap c) * D.mat.nuSigF g (D.mmap c) / D.keff else 0)) * (phi c * psi c) := by
  unfold Loss.energy
  rw [← leak_form D hh hpos g, ← Finset.sum_add_distrib]
  refine Finset.sum_congr rfl fun c hc => ?_
  rw [mem_range] at hc
  rw [hC _ g hg c hc, local_inGroup D ok g c phi hg hc]
  have hf : ∀ leak ∈ range 6, D.faceTerm g (fun c => D.inGroup g phi (D.pos g c)) c leak
      / D.M.width c (leak / 2) = D.faceTerm g phi c leak / D.M.width c (leak / 2) := by
    intro leak hl
    congr 1
    unfold Loss.faceTerm
    simp only
    rw [inGroup_pos D ok g g c phi hg hg hc, if_pos rfl]
    by_cases hb : D.M.onBoundary c leak = true
    · rw [if_pos hb, if_pos hb]
    · rw [if_neg hb, if_neg hb, inGroup_pos D ok g g _ phi hg hg
        (neighbour_spec D.M hc (mem_range.1 hl) (by simpa using hb)).1, if_pos rfl]
  rw [Finset.sum_congr rfl hf]
  ring

/-- C50: symmetry.  In every group the volume-weighted matrix is symmetric in space: for all cell fluxes
    `phi` and `psi`, weighting the product with `phi` by `psi` equals the converse. -/
theorem C50_symmetric (D : Loss K) (ok : D.OK) (hh : ∀ a i, D.M.h a i ≠ 0)
    (srt : List (Trip K) → List (Trip K)) (hs : IsSort srt) (C : CSR K) (bs : List Bool)
    (hC : D.sys.make srt = .ok (some C, bs)) (g : Nat) (hg : g ∈ D.active) (phi psi : Nat → K) :
    D.energy C g phi psi = D.energy C g psi phi := by
  obtain ⟨C', h1, _, _, h4⟩ := rows D ok srt hs
  rw [h1, Out.ok.injEq, Prod.mk.injEq, Option.some.injEq] at hC
  obtain ⟨rfl, _⟩ := hC
  rcases Nat.eq_zero_or_pos D.M.size with h0 | h0
  · simp [Loss.energy, h0]
  · rw [energy_eq D ok hh h0 C' h4 g hg, energy_eq D ok hh h0 C' h4 g hg, form_symm D g 0, form_symm D g 1,
      form_symm D g 2]
    congr 1
    exact Finset.sum_congr rfl fun c _ => by ring

/-- Net outflow through the boundary faces of the mesh: current times face area. -/
def Loss.outflow (D : Loss K) (J : Nat → Nat → K) : K :=
  ∑ c ∈ range D.M.size, ∑ leak ∈ range 6,
    if D.M.onBoundary c leak then J c leak * (D.M.volume c / D.M.width c (leak / 2)) else 0

theorem form_one (D : Loss K) (hh : ∀ a i, D.M.h a i ≠ 0) (hpos : 0 < D.M.size) (g a : Nat) (ha : a < 3)
    (phi : Nat → K) :
    D.form g a phi (fun _ => 1) = ∑ c ∈ range D.M.size,
      ((if D.M.onBoundary c (2 * a) then D.faceTerm g phi c (2 * a) * (D.M.volume c / D.M.width c a) else 0)
      + (if D.M.onBoundary c (2 * a + 1) then D.faceTerm g phi c (2 * a + 1) * (D.M.volume c / D.M.width c a)
        else 0)) := by
  obtain ⟨n, hn⟩ : ∃ n, D.M.count a = n + 1 := ⟨D.M.count a - 1, by have := coord_lt D.M hpos a; omega⟩
  rw [sum_cells D.M a ha]
  unfold Loss.form
  refine Finset.sum_congr rfl fun v hv => Finset.sum_congr rfl fun u hu => ?_
  rw [mem_range] at hv hu
  have key : ∀ s ∈ range (D.M.count a),
      ((if D.M.onBoundary (D.M.cellA a s u v) (2 * a) then D.faceTerm g phi (D.M.cellA a s u v) (2 * a)
          * (D.M.volume (D.M.cellA a s u v) / D.M.width (D.M.cellA a s u v) a) else 0)
      + (if D.M.onBoundary (D.M.cellA a s u v) (2 * a + 1) then D.faceTerm g phi (D.M.cellA a s u v) (2 * a + 1)
          * (D.M.volume (D.M.cellA a s u v) / D.M.width (D.M.cellA a s u v) a) else 0))
      = (if s = 0 then dBoundary (D.dc g (D.M.cellA a 0 u v)) (D.al (2 * a)) (D.M.h a 0)
          * phi (D.M.cellA a 0 u v) * (D.M.h (other a).1 u * D.M.h (other a).2 v) else 0)
      + (if s = n then dBoundary (D.dc g (D.M.cellA a n u v)) (D.al (2 * a + 1)) (D.M.h a n)
          * phi (D.M.cellA a n u v) * (D.M.h (other a).1 u * D.M.h (other a).2 v) else 0) := by
    intro s hs
    rw [mem_range] at hs
    obtain ⟨c1, c2, c3, c4⟩ := cellA_coord D.M a ha hs hu hv
    have hw : D.M.width (D.M.cellA a s u v) a = D.M.h a s := by unfold Grid.width; rw [c1]
    have hw1 : D.M.width (D.M.cellA a s u v) (other a).1 = D.M.h (other a).1 u := by unfold Grid.width; rw [c2]
    have hw2 : D.M.width (D.M.cellA a s u v) (other a).2 = D.M.h (other a).2 v := by unfold Grid.width; rw [c3]
    have hV : D.M.volume (D.M.cellA a s u v) / D.M.width (D.M.cellA a s u v) a
        = D.M.h (other a).1 u * D.M.h (other a).2 v := by
      rw [volume_axis D.M _ a ha, hw, hw1, hw2, mul_div_cancel_left₀ _ (hh a s)]
    rw [hV]
    congr 1
    · unfold Loss.faceTerm Loss.dtilde
      rw [boundary_low, c1, (leak_half a).1, hw]
      by_cases h0 : s = 0
      · simp [h0]
      · simp [h0]
    · unfold Loss.faceTerm Loss.dtilde
      rw [boundary_high, c1, (leak_half a).2.2.1, hw, hn, Nat.add_sub_cancel]
      by_cases h0 : s = n
      · simp [h0]
      · simp [h0]
  rw [Finset.sum_congr rfl key, Finset.sum_add_distrib, Finset.sum_ite_eq', Finset.sum_ite_eq', hn,
    if_pos (by simp), if_pos (by simp)]
  simp only [sub_self, mul_zero, Finset.sum_const_zero, Nat.add_sub_cancel]
  ring

/-- C50: conservation.  Summed over all cells with their volumes, the product leaves only the currents
    through the boundary of the mesh and the removal, scattering and fission terms. -/
theorem C50_conservation (D : Loss K) (ok : D.OK) (hp : D.Pos) (hpos : 0 < D.M.size)
    (srt : List (Trip K) → List (Trip K)) (hs : IsSort srt) (C : CSR K) (bs : List Bool)
    (hC : D.sys.make srt = .ok (some C, bs)) (g : Nat) (hg : g ∈ D.active) (x : Nat → K)
    (J : Nat → Nat → K)
    (hJ : ∀ c < D.M.size, ∀ leak < 6, D.IsCurrent g (fun c => x (D.pos g c)) c leak (J c leak)) :
    ∑ c ∈ range D.M.size, D.M.volume c * C.multiply x (D.pos g c)
      = D.outflow J + ∑ c ∈ range D.M.size, D.M.volume c * D.local x g c := by
  have hh : ∀ a i, D.M.h a i ≠ 0 := fun a i => (hp.h a i).ne'
  obtain ⟨C', h1, _, _, h4⟩ := rows D ok srt hs
  rw [h1, Out.ok.injEq, Prod.mk.injEq, Option.some.injEq] at hC
  obtain ⟨rfl, _⟩ := hC
  have h5 := leak_form D hh hpos g (fun c => x (D.pos g c)) (fun _ => 1)
  rw [form_one D hh hpos g 0 (by omega), form_one D hh hpos g 1 (by omega), form_one D hh hpos g 2 (by omega),
    ← Finset.sum_add_distrib, ← Finset.sum_add_distrib] at h5
  have h6 : D.outflow J = ∑ c ∈ range D.M.size, D.M.volume c * 1 *
        ∑ leak ∈ range 6, D.faceTerm g (fun c => x (D.pos g c)) c leak / D.M.width c (leak / 2) := by
    rw [h5]
    refine Finset.sum_congr rfl fun c hc => ?_
    rw [mem_range] at hc
    rw [Finset.sum_congr rfl (fun leak hl => by
      rw [(isCurrent_iff D hp g _ c leak _).1 (hJ c hc leak (mem_range.1 hl))])]
    rw [← Material.sum_map_range, range6]
    norm_num only
    ring
  rw [h6, ← Finset.sum_add_distrib]
  refine Finset.sum_congr rfl fun c hc => ?_
  rw [h4 x g hg c (mem_range.1 hc)]
  ring

/-- C50: a reflecting side (albedo one) leaks nothing. -/
theorem C50_reflect (D : Loss K) (hp : D.Pos) (g : Nat) (phi : Nat → K) (c leak : Nat)
    (hb : D.M.onBoundary c leak = true) (ha : D.al leak = 1) (J : K) (hJ : D.IsCurrent g phi c leak J) :
    J = 0 := by
  rw [(isCurrent_iff D hp g phi c leak J).1 hJ]
  simp [Loss.faceTerm, Loss.dtilde, dBoundary, hb, ha]

/-- C50: the albedo the constructor sets: one on sides called `"reflect"` and in directions the mesh does
    not have, zero on open sides, minus one (zero flux) on named open sides when zero flux is asked for. -/
theorem C50_albedo (dim : Nat) (zf : Bool) (bc : Nat → Option String) (side : Nat) :
    (bc side = some "reflect" → (albedo dim false zf bc side : K) = 1) ∧
    (2 * dim ≤ side → (albedo dim false zf bc side : K) = 1) ∧
    (side < 2 * dim → bc side ≠ some "reflect" →
      (albedo dim false zf bc side : K) = if zf = true ∧ bc side ≠ none then -1 else 0) ∧
    (-1 ≤ (albedo dim false zf bc side : K) ∧ (albedo dim false zf bc side : K) ≤ 1) := by
  unfold albedo
  simp only [Bool.false_eq_true, if_false]
  refine ⟨fun h => ?_, fun h => by rw [if_neg (by omega)], fun h h2 => ?_, ?_⟩
  · rw [h]; simp
  · rw [if_pos h]
    cases hb : bc side with
    | none => simp
    | some s =>
      rw [hb] at h2
      simp only [ne_eq, Option.some.injEq] at h2
      simp [h2]
  · split
    · cases bc side with
      | none => norm_num
      | some s =>
        simp only
        split
        · norm_num
        · split <;> norm_num
    · norm_num

/-- C50: an `"albedo"` entry in the input makes every side reflecting, whatever the boundary conditions. -/
theorem C50_albedo_entry (dim : Nat) (zf : Bool) (bc : Nat → Option String) (side : Nat) :
    (albedo dim true zf bc side : K) = 1 := rfl

theorem dBoundary_nonneg {d al h : K} (hd : 0 < d) (hh : 0 < h) (a1 : -1 ≤ al) (a2 : al ≤ 1) :
    0 ≤ dBoundary d al h := by
  unfold dBoundary
  refine div_nonneg (mul_nonneg (by linarith) (by linarith)) ?_
  have h1 : 0 ≤ 4 * d * (1 + al) := mul_nonneg (by linarith) (by linarith)
  have h2 : 0 ≤ (1 - al) * h := mul_nonneg (by linarith) hh.le
  linarith

theorem form_nonneg (D : Loss K) (hp : D.Pos) (g a : Nat) (phi : Nat → K) : 0 ≤ D.form g a phi phi := by
  unfold Loss.form
  refine Finset.sum_nonneg fun v _ => Finset.sum_nonneg fun u _ => ?_
  refine mul_nonneg (mul_nonneg (hp.h _ _).le (hp.h _ _).le) (add_nonneg (add_nonneg ?_ ?_) ?_)
  · refine Finset.sum_nonneg fun s _ => ?_
    rw [mul_assoc]
    refine mul_nonneg ?_ (mul_self_nonneg _)
    unfold dInterior
    have h1 := hp.h a s
    have h2 := hp.h a (s + 1)
    have h3 : 0 < D.dc g (D.M.cellA a s u v) := hp.dc _ _
    have h4 : 0 < D.dc g (D.M.cellA a (s + 1) u v) := hp.dc _ _
    positivity
  · rw [mul_assoc]
    exact mul_nonneg (dBoundary_nonneg (hp.dc _ _) (hp.h _ _) (hp.al _).1 (hp.al _).2) (mul_self_nonneg _)
  · rw [mul_assoc]
    exact mul_nonneg (dBoundary_nonneg (hp.dc _ _) (hp.h _ _) (hp.al _).1 (hp.al _).2) (mul_self_nonneg _)

/-- C50: with non-negative removal and no fission the group block is positive semi-definite; it is at least
    the removal rate. -/
theorem C50_positive (D : Loss K) (ok : D.OK) (hp : D.Pos) (hf : D.fission = false)
    (hr : ∀ g c, 0 ≤ D.removal g c)
    (srt : List (Trip K) → List (Trip K)) (hs : IsSort srt) (C : CSR K) (bs : List Bool)
    (hC : D.sys.make srt = .ok (some C, bs)) (g : Nat) (hg : g ∈ D.active) (phi : Nat → K) :
    ∑ c ∈ range D.M.size, D.M.volume c * D.removal g c * (phi c * phi c) ≤ D.energy C g phi phi ∧
    0 ≤ D.energy C g phi phi := by
  have hh : ∀ a i, D.M.h a i ≠ 0 := fun a i => (hp.h a i).ne'
  obtain ⟨C', h1, _, _, h4⟩ := rows D ok srt hs
  rw [h1, Out.ok.injEq, Prod.mk.injEq, Option.some.injEq] at hC
  obtain ⟨rfl, _⟩ := hC
  have hsum : 0 ≤ ∑ c ∈ range D.M.size, D.M.volume c * D.removal g c * (phi c * phi c) := by
    refine Finset.sum_nonneg fun c _ => mul_nonneg (mul_nonneg ?_ (hr g c)) (mul_self_nonneg _)
    exact mul_nonneg (mul_nonneg (hp.h _ _).le (hp.h _ _).le) (hp.h _ _).le
  have key : ∑ c ∈ range D.M.size, D.M.volume c * D.removal g c * (phi c * phi c) ≤ D.energy C' g phi phi := by
    rcases Nat.eq_zero_or_pos D.M.size with h0 | h0
    · simp [Loss.energy, h0]
    · rw [energy_eq D ok hh h0 C' h4 g hg]
      simp only [hf, Bool.false_eq_true, false_and, if_false, sub_zero]
      have a0 := form_nonneg D hp g 0 phi
      have a1 := form_nonneg D hp g 1 phi
      have a2 := form_nonneg D hp g 2 phi
      linarith
  exact ⟨key, hsum.trans key⟩

end Detran.Diffusion
