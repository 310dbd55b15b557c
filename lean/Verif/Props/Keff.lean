import Verif.Lemmas.Perron
import Verif.Props.EigenPI
import Mathlib.Tactic.IntervalCases

/-!
# The multiplication factor (C133) and convergence of power iteration (C134)
-/

namespace Detran.EigenPI

open Detran.Material Finset

section main
variable {K : Type} [Field K] [LinearOrder K] [IsStrictOrderedRing K]

/-! ## Specification -/

/-- What one unit of fission density emits into group `g`. -/
def emits (x : Src K) (g c : Nat) : K := if x.adjoint then x.mat.nuSigF g (x.mmap c) else x.mat.chi g (x.mmap c)

/-- Fission density made by a unit flux of group `g`. -/
def makes (x : Src K) (g c : Nat) : K := if x.adjoint then x.mat.chi g (x.mmap c) else x.mat.nuSigF g (x.mmap c)

/-- No negative fission data. -/
structure Data (x : Src K) : Prop where
  emits : ∀ g < x.mat.G, ∀ c < x.N, 0 ≤ emits x g c
  makes : ∀ g < x.mat.G, ∀ c < x.N, 0 ≤ makes x g c

/-- Cells in which some flux makes fission density. -/
def Fissile (x : Src K) (c : Nat) : Prop := c < x.N ∧ ∃ g < x.mat.G, makes x g c ≠ 0

/-- The fluxes of a source depend linearly on it, and are not negative where it is not. -/
structure Solver (x : Src K) (S : (Nat → Nat → K) → Nat → Nat → K) : Prop where
  lin : ∀ (s t : K) q q', ∀ g < x.mat.G, ∀ c < x.N,
    S (fun g c => s * q g c + t * q' g c) g c = s * S q g c + t * S q' g c
  pos : ∀ q, (∀ g < x.mat.G, ∀ c < x.N, 0 ≤ q g c) → ∀ g < x.mat.G, ∀ c < x.N, 0 ≤ S q g c

/-- `d` reproduces itself with multiplication factor `k`. -/
def Mode (x : Src K) (S : (Nat → Nat → K) → Nat → Nat → K) (k : K) (d : Nat → K) : Prop :=
  ∀ c < x.N, fop x S d c = k * d c

/-- Fissions in one fissile cell make fissions in every other. -/
def Mixing (x : Src K) (S : (Nat → Nat → K) → Nat → Nat → K) : Prop :=
  ∀ c, Fissile x c → ∀ c', Fissile x c' → 0 < fop x S (fun i => if i = c then 1 else 0) c'

/-! ## Lemmas -/

variable {x : Src K} {S : (Nat → Nat → K) → Nat → Nat → K}

theorem fop_eq (x : Src K) (S) (d : Nat → K) {c : Nat} (hc : c < x.N) :
    fop x S d c = ∑ g ∈ range x.mat.G, S (fun g c => d c * emits x g c) g c * makes x g c := by
  unfold fop
  rw [if_pos hc]
  rfl

theorem fop_lin (h : Solver x S) (s t : K) (d d' : Nat → K) {c : Nat} (hc : c < x.N) :
    fop x S (fun i => s * d i + t * d' i) c = s * fop x S d c + t * fop x S d' c := by
  rw [fop_eq x S _ hc, fop_eq x S _ hc, fop_eq x S _ hc, mul_sum, mul_sum, ← sum_add_distrib]
  refine sum_congr rfl fun g hg => ?_
  have e : (fun g c => (s * d c + t * d' c) * emits x g c) =
      fun g c => s * (d c * emits x g c) + t * (d' c * emits x g c) := by
    funext g c
    ring
  rw [e, h.lin s t _ _ g (mem_range.1 hg) c hc]
  ring

theorem fop_nonneg (h : Solver x S) (hd : Data x) {d : Nat → K} (h0 : ∀ c < x.N, 0 ≤ d c) {c : Nat} (hc : c < x.N) :
    0 ≤ fop x S d c := by
  rw [fop_eq x S _ hc]
  exact sum_nonneg fun g hg => mul_nonneg (h.pos _ (fun g hg c hc => mul_nonneg (h0 c hc) (hd.emits g hg c hc)) g
    (mem_range.1 hg) c hc) (hd.makes g (mem_range.1 hg) c hc)

theorem fop_mono (h : Solver x S) (hd : Data x) {d d' : Nat → K} (h0 : ∀ c < x.N, d c ≤ d' c) {c : Nat} (hc : c < x.N) :
    fop x S d c ≤ fop x S d' c := by
  have := fop_nonneg h hd (d := fun i => 1 * d' i + -1 * d i) (fun c hc => by have := h0 c hc; linarith) hc
  rw [fop_lin h _ _ _ _ hc] at this
  linarith

theorem fop_smul (h : Solver x S) (s : K) (d : Nat → K) {c : Nat} (hc : c < x.N) :
    fop x S (fun i => s * d i) c = s * fop x S d c := by
  have := fop_lin h s 0 d d hc
  simpa using this

theorem fop_congr (h : Solver x S) (hd : Data x) {d d' : Nat → K} (h0 : ∀ c < x.N, d c = d' c) {c : Nat} (hc : c < x.N) :
    fop x S d c = fop x S d' c :=
  le_antisymm (fop_mono h hd (fun c hc => (h0 c hc).le) hc) (fop_mono h hd (fun c hc => (h0 c hc).ge) hc)

theorem fop_off (x : Src K) (S) (d : Nat → K) {c : Nat} (hc : c < x.N) (hf : ¬ Fissile x c) : fop x S d c = 0 := by
  rw [fop_eq x S _ hc]
  refine sum_eq_zero fun g hg => ?_
  have : makes x g c = 0 := by
    by_contra hn
    exact hf ⟨hc, g, mem_range.1 hg, hn⟩
  rw [this, mul_zero]

/-- A mode's density is zero where nothing is fissile. -/
theorem mode_off {k : K} (hk : k ≠ 0) {d : Nat → K} (hm : Mode x S k d) {c : Nat} (hc : c < x.N) (hf : ¬ Fissile x c) :
    d c = 0 := by
  have := hm c hc
  rw [fop_off x S d hc hf] at this
  exact (mul_eq_zero.1 this.symm).resolve_left hk

/-- A largest quotient over the fissile cells. -/
theorem top_quotient (x : Src K) (f d : Nat → K) (hd : ∀ c, Fissile x c → 0 < d c) (hne : ∃ c, Fissile x c) :
    ∃ c, Fissile x c ∧ ∀ c', Fissile x c' → f c' ≤ f c / d c * d c' := by
  classical
  obtain ⟨c0, h0⟩ := hne
  obtain ⟨c, hc, hmax⟩ := exists_max_image ((range x.N).filter (Fissile x)) (fun c => f c / d c)
    ⟨c0, mem_filter.2 ⟨mem_range.2 h0.1, h0⟩⟩
  refine ⟨c, (mem_filter.1 hc).2, fun c' hc' => ?_⟩
  rw [← div_le_iff₀ (hd c' hc')]
  exact hmax c' (mem_filter.2 ⟨mem_range.2 hc'.1, hc'⟩)

/-! ## C133: the multiplication factor -/

/-- What one problem makes of a density, compared with another problem and another density. -/
def Below (x : Src K) (S : (Nat → Nat → K) → Nat → Nat → K) (x' : Src K) (S' : (Nat → Nat → K) → Nat → Nat → K) : Prop :=
  ∀ d : Nat → K, (∀ c < x.N, 0 ≤ d c) → ∀ c < x.N, fop x S d c ≤ fop x' S' d c

/-- No mode of a problem has a larger factor, in magnitude, than a positive density of the same problem, or of one that
    multiplies more, is multiplied by in some fissile cell. -/
theorem C133_upper {x' : Src K} {S' : (Nat → Nat → K) → Nat → Nat → K} (h : Solver x S) (hd : Data x) (h' : Solver x' S')
    (hd' : Data x') (hN : x'.N = x.N) (hB : Below x S x' S') {k hi : K} {d f : Nat → K} (hm : Mode x S k d) (hk : k ≠ 0)
    (hne : ∃ c < x.N, d c ≠ 0) (hf : ∀ c, Fissile x c → 0 < f c) (hf0 : ∀ c < x.N, 0 ≤ f c)
    (hi' : ∀ c, Fissile x c → fop x' S' f c ≤ hi * f c) : |k| ≤ hi := by
  have hz : ∀ c < x.N, ¬ Fissile x c → d c = 0 := fun c hc => mode_off hk hm hc
  obtain ⟨c0, hc0, hd0⟩ := hne
  have hF0 : Fissile x c0 := by
    by_contra hn
    exact hd0 (hz c0 hc0 hn)
  obtain ⟨c, hF, hmax⟩ := top_quotient x (fun c => |d c|) f hf ⟨c0, hF0⟩
  have hc := hF.1
  have hdc : 0 < |d c| := by
    have h1 := (abs_pos.2 hd0).trans_le (hmax c0 hF0)
    by_contra hn
    have e : |d c| = 0 := le_antisymm (not_lt.1 hn) (abs_nonneg _)
    simp only [e, zero_div, zero_mul] at h1
    exact lt_irrefl _ h1
  have t0 : 0 ≤ |d c| / f c := div_nonneg (abs_nonneg _) (hf c hF).le
  have e1 : |k| * |d c| ≤ fop x S (fun i => |d i|) c := by
    rw [← abs_mul, ← hm c hc, abs_le]
    constructor
    · have := fop_mono h hd (d := fun i => -1 * |d i|) (d' := d) (fun i _ => by have := neg_abs_le (d i); linarith) hc
      rw [fop_smul h _ _ hc] at this
      linarith
    · exact fop_mono h hd (fun i _ => le_abs_self _) hc
  have e2 := hB (fun i => |d i|) (fun _ _ => abs_nonneg _) c hc
  have e3 : fop x' S' (fun i => |d i|) c ≤ fop x' S' (fun i => |d c| / f c * f i) c := by
    refine fop_mono h' hd' (fun i hi => ?_) (by rw [hN]; exact hc)
    rw [hN] at hi
    by_cases hFi : Fissile x i
    · exact hmax i hFi
    · rw [hz i hi hFi, abs_zero]
      exact mul_nonneg t0 (hf0 i hi)
  rw [fop_smul h' _ _ (by rw [hN]; exact hc)] at e3
  have e4 := mul_le_mul_of_nonneg_left (hi' c hF) t0
  have e5 : |d c| / f c * (hi * f c) = hi * |d c| := by have := (hf c hF).ne'; field_simp
  rw [e5] at e4
  exact le_of_mul_le_mul_right (e1.trans (e2.trans (e3.trans e4))) hdc

/-- Nor does a mode with positive density have a smaller factor than a density is multiplied by in every fissile cell. -/
theorem C133_lower (h : Solver x S) (hd : Data x) {k lo : K} {d f : Nat → K} (hm : Mode x S k d) (h0 : 0 < k)
    (hp : ∀ c, Fissile x c → 0 < d c) (hf0 : ∀ c < x.N, ¬ Fissile x c → f c ≤ 0) (hne : ∃ c, Fissile x c ∧ 0 < f c)
    (hl : ∀ c, Fissile x c → lo * f c ≤ fop x S f c) : lo ≤ k := by
  obtain ⟨c0, hF0, hc0⟩ := hne
  obtain ⟨c, hF, hmax⟩ := top_quotient x f d hp ⟨c0, hF0⟩
  have hc := hF.1
  have hfc : 0 < f c := by
    have h1 := hc0.trans_le (hmax c0 hF0)
    by_contra hn
    have := mul_nonpos_of_nonpos_of_nonneg (div_nonpos_of_nonpos_of_nonneg (not_lt.1 hn) (hp c hF).le) (hp c0 hF0).le
    linarith
  have e1 : fop x S f c ≤ fop x S (fun i => f c / d c * d i) c := by
    refine fop_mono h hd (fun i hi => ?_) hc
    by_cases hFi : Fissile x i
    · exact hmax i hFi
    · rw [mode_off h0.ne' hm hi hFi, mul_zero]
      exact hf0 i hi hFi
  rw [fop_smul h _ _ hc, hm c hc] at e1
  have e2 : f c / d c * (k * d c) = k * f c := by have := (hp c hF).ne'; field_simp
  rw [e2] at e1
  exact le_of_mul_le_mul_right ((hl c hF).trans e1) hfc

theorem below_refl (x : Src K) (S) : Below x S x S := fun _ _ _ _ => le_refl _

theorem mode_data {k : K} {d : Nat → K} (hk : k ≠ 0) (hm : Mode x S k d) (hp : ∀ c, Fissile x c → 0 < d c) :
    ∀ c < x.N, 0 ≤ d c := fun c hc => by
  by_cases hf : Fissile x c
  · exact (hp c hf).le
  · exact (mode_off hk hm hc hf).ge

/-- The factor of a mode with positive density exceeds that of every other real mode in magnitude. -/
theorem C133_dominant (h : Solver x S) (hd : Data x) {k k' : K} {d d' : Nat → K} (hm : Mode x S k d) (h0 : k ≠ 0)
    (hp : ∀ c, Fissile x c → 0 < d c) (hm' : Mode x S k' d') (h0' : k' ≠ 0) (hne : ∃ c < x.N, d' c ≠ 0) : |k'| ≤ k :=
  C133_upper h hd h hd rfl (below_refl x S) hm' h0' hne hp (mode_data h0 hm hp) fun c hc => (hm c hc.1).le

/-- There is one such factor. -/
theorem C133_one (h : Solver x S) (hd : Data x) {k k' : K} {d d' : Nat → K} (hm : Mode x S k d) (h0 : 0 < k)
    (hp : ∀ c, Fissile x c → 0 < d c) (hm' : Mode x S k' d') (h0' : 0 < k') (hp' : ∀ c, Fissile x c → 0 < d' c)
    (hne : ∃ c, Fissile x c) : k = k' := by
  obtain ⟨c, hc⟩ := hne
  have a := C133_dominant h hd hm h0.ne' hp hm' h0'.ne' ⟨c, hc.1, (hp' c hc).ne'⟩
  have b := C133_dominant h hd hm' h0'.ne' hp' hm h0.ne' ⟨c, hc.1, (hp c hc).ne'⟩
  rw [abs_of_pos h0'] at a
  rw [abs_of_pos h0] at b
  exact le_antisymm b a

/-- It lies between the smallest and the largest factor by which any positive density is multiplied. -/
theorem C133_quotients (h : Solver x S) (hd : Data x) {k lo hi : K} {d f : Nat → K} (hm : Mode x S k d) (h0 : 0 < k)
    (hp : ∀ c, Fissile x c → 0 < d c) (hne : ∃ c, Fissile x c) (hf : ∀ c, Fissile x c → 0 < f c)
    (hf0 : ∀ c < x.N, ¬ Fissile x c → f c = 0) (hl : ∀ c, Fissile x c → lo * f c ≤ fop x S f c)
    (hu : ∀ c, Fissile x c → fop x S f c ≤ hi * f c) : lo ≤ k ∧ k ≤ hi := by
  obtain ⟨c, hc⟩ := hne
  refine ⟨C133_lower h hd hm h0 hp (fun c hc hF => (hf0 c hc hF).le) ⟨c, hc, hf c hc⟩ hl, ?_⟩
  have := C133_upper h hd h hd rfl (below_refl x S) hm h0.ne' ⟨c, hc.1, (hp c hc).ne'⟩ hf (fun i hi => by
    by_cases hF : Fissile x i
    · exact (hf i hF).le
    · exact (hf0 i hi hF).ge) hu
  rwa [abs_of_pos h0] at this

/-- A problem that multiplies more has no smaller factor. -/
theorem C133_more {x' : Src K} {S' : (Nat → Nat → K) → Nat → Nat → K} (h : Solver x S) (hd : Data x) (h' : Solver x' S')
    (hd' : Data x') (hN : x'.N = x.N) (hB : Below x S x' S') (hF : ∀ c, Fissile x c → Fissile x' c) {k k' : K}
    {d d' : Nat → K} (hm : Mode x S k d) (h0 : k ≠ 0) (hne : ∃ c < x.N, d c ≠ 0) (hm' : Mode x' S' k' d') (h0' : k' ≠ 0)
    (hp' : ∀ c, Fissile x' c → 0 < d' c) : |k| ≤ k' :=
  C133_upper h hd h' hd' hN hB hm h0 hne (fun c hc => hp' c (hF c hc))
    (fun c hc => mode_data h0' hm' hp' c (by rw [hN]; exact hc)) fun c hc => (hm' c (hF c hc).1).le

/-- Fluxes that are no less than what their own fissions, divided by `kk`, feed bound the factor from above. -/
theorem C133_above (h : Solver x S) (hd : Data x) {k kk : K} {d : Nat → K} (hm : Mode x S k d) (h0 : k ≠ 0)
    (hne : ∃ c < x.N, d c ≠ 0) (hkk : 0 < kk) (v : Nat → Nat → K) (hv : ∀ g < x.mat.G, ∀ c < x.N, 0 < v g c)
    (hs : ∀ g < x.mat.G, ∀ c < x.N,
      S (fun g c => 1 / kk * ((∑ gp ∈ range x.mat.G, makes x gp c * v gp c) * emits x g c)) g c ≤ v g c) : |k| ≤ kk := by
  have hf : ∀ c, Fissile x c → 0 < ∑ gp ∈ range x.mat.G, makes x gp c * v gp c := by
    rintro c ⟨hc, g, hg, hn⟩
    exact sum_pos' (fun g hg => mul_nonneg (hd.makes g (mem_range.1 hg) c hc) (hv g (mem_range.1 hg) c hc).le)
      ⟨g, mem_range.2 hg, mul_pos (lt_of_le_of_ne (hd.makes g hg c hc) (Ne.symm hn)) (hv g hg c hc)⟩
  refine C133_upper h hd h hd rfl (below_refl x S) (f := fun c => ∑ gp ∈ range x.mat.G, makes x gp c * v gp c) hm h0 hne hf
    (fun c hc => sum_nonneg fun g hg => mul_nonneg (hd.makes g (mem_range.1 hg) c hc) (hv g (mem_range.1 hg) c hc).le)
    fun c hc => ?_
  rw [fop_eq x S _ hc.1, mul_sum]
  refine sum_le_sum fun g hg => ?_
  have hg := mem_range.1 hg
  have := hs g hg c hc.1
  have e := h.lin (1 / kk) 0 (fun g c => (∑ gp ∈ range x.mat.G, makes x gp c * v gp c) * emits x g c) (fun _ _ => 0) g hg c hc.1
  simp only [zero_mul, add_zero] at e
  rw [e] at this
  have h2 : S (fun g c => (∑ gp ∈ range x.mat.G, makes x gp c * v gp c) * emits x g c) g c ≤ kk * v g c := by
    rw [one_div, inv_mul_le_iff₀ hkk] at this
    exact this
  have := mul_le_mul_of_nonneg_right h2 (hd.makes g hg c hc.1)
  linarith

/-- Fluxes that are no more than that bound it from below. -/
theorem C133_under (h : Solver x S) (hd : Data x) {k kk : K} {d : Nat → K} (hm : Mode x S k d) (h0 : 0 < k)
    (hp : ∀ c, Fissile x c → 0 < d c) (hne : ∃ c, Fissile x c) (hkk : 0 < kk) (v : Nat → Nat → K)
    (hv : ∀ g < x.mat.G, ∀ c < x.N, 0 < v g c)
    (hs : ∀ g < x.mat.G, ∀ c < x.N,
      v g c ≤ S (fun g c => 1 / kk * ((∑ gp ∈ range x.mat.G, makes x gp c * v gp c) * emits x g c)) g c) : kk ≤ k := by
  have hf : ∀ c, Fissile x c → 0 < ∑ gp ∈ range x.mat.G, makes x gp c * v gp c := by
    rintro c ⟨hc, g, hg, hn⟩
    exact sum_pos' (fun g hg => mul_nonneg (hd.makes g (mem_range.1 hg) c hc) (hv g (mem_range.1 hg) c hc).le)
      ⟨g, mem_range.2 hg, mul_pos (lt_of_le_of_ne (hd.makes g hg c hc) (Ne.symm hn)) (hv g hg c hc)⟩
  obtain ⟨c0, hc0⟩ := hne
  refine C133_lower h hd (f := fun c => ∑ gp ∈ range x.mat.G, makes x gp c * v gp c) hm h0 hp (fun c hc hF => le_of_eq ?_)
    ⟨c0, hc0, hf c0 hc0⟩ fun c hc => ?_
  · refine sum_eq_zero fun g hg => ?_
    have : makes x g c = 0 := by
      by_contra hn
      exact hF ⟨hc, g, mem_range.1 hg, hn⟩
    rw [this, zero_mul]
  · rw [fop_eq x S _ hc.1, mul_sum]
    refine sum_le_sum fun g hg => ?_
    have hg := mem_range.1 hg
    have := hs g hg c hc.1
    have e := h.lin (1 / kk) 0 (fun g c => (∑ gp ∈ range x.mat.G, makes x gp c * v gp c) * emits x g c) (fun _ _ => 0) g hg c
      hc.1
    simp only [zero_mul, add_zero] at e
    rw [e] at this
    have h2 : kk * v g c ≤ S (fun g c => (∑ gp ∈ range x.mat.G, makes x gp c * v gp c) * emits x g c) g c := by
      rw [one_div, le_inv_mul_iff₀ hkk] at this
      exact this
    have := mul_le_mul_of_nonneg_right h2 (hd.makes g hg c hc.1)
    linarith

/-! ## The fission operator as a matrix -/

/-- Fissile cells as an index type. -/
abbrev Cell (x : Src K) : Type := { c : Fin x.N // Fissile x c }

noncomputable instance (x : Src K) : Fintype (Cell x) := by
  classical
  exact Fintype.ofFinite _

/-- Entry of the fission matrix. -/
noncomputable def fmat (x : Src K) (S : (Nat → Nat → K) → Nat → Nat → K) (i j : Cell x) : K :=
  fop x S (fun c => if c = j.1.1 then 1 else 0) i.1.1

theorem fop_sum (h : Solver x S) (d : Nat → K) (l : Finset Nat) {c : Nat} (hc : c < x.N) :
    fop x S (fun i => ∑ j ∈ l, d j * (if i = j then 1 else 0)) c =
      ∑ j ∈ l, d j * fop x S (fun i => if i = j then 1 else 0) c := by
  classical
  induction l using Finset.induction_on with
  | empty =>
    simp only [sum_empty]
    have := fop_smul h 0 (fun _ => 0) hc
    simpa using this
  | insert j l hj ih =>
    have e : (fun i => ∑ j ∈ insert j l, d j * (if i = j then (1 : K) else 0)) = fun i => d j * (if i = j then 1 else 0) +
        1 * ∑ j ∈ l, d j * (if i = j then (1 : K) else 0) := by
      funext i
      rw [sum_insert hj, one_mul]
    rw [e, fop_lin h _ _ _ _ hc, ih, sum_insert hj, one_mul]

/-- On densities of fissile cells the fission operator is that matrix. -/
theorem fop_app (h : Solver x S) (hd : Data x) (d : Nat → K) (h0 : ∀ c < x.N, ¬ Fissile x c → d c = 0) (i : Cell x) :
    fop x S d i.1.1 = Perron.app (fmat x S) (fun j => d j.1.1) i := by
  classical
  have hi := i.1.2
  have e1 : fop x S d i.1.1 = fop x S (fun i => ∑ j ∈ (range x.N).filter (Fissile x), d j * (if i = j then 1 else 0)) i.1.1 := by
    refine fop_congr h hd (fun c hc => ?_) hi
    by_cases hF : Fissile x c
    · rw [sum_eq_single c]
      · simp
      · intro b _ hb
        rw [if_neg (Ne.symm hb), mul_zero]
      · intro hn
        exact absurd (mem_filter.2 ⟨mem_range.2 hc, hF⟩) hn
    · rw [h0 c hc hF]
      refine (sum_eq_zero fun j hj => ?_).symm
      have : c ≠ j := fun e => hF (e ▸ (mem_filter.1 hj).2)
      rw [if_neg this, mul_zero]
  rw [e1, fop_sum h _ _ hi]
  unfold Perron.app fmat
  symm
  refine sum_bij (fun (j : Cell x) _ => j.1.1) (fun j _ => mem_filter.2 ⟨mem_range.2 j.1.2, j.2⟩)
    (fun a _ b _ hab => Subtype.ext (Fin.ext hab)) (fun b hb => ?_) (fun j _ => by ring)
  have := mem_filter.1 hb
  exact ⟨⟨⟨b, mem_range.1 this.1⟩, this.2⟩, mem_univ _, rfl⟩

theorem fmat_pos (hM : Mixing x S) (i j : Cell x) : 0 < fmat x S i j := hM j.1.1 j.2 i.1.1 i.2

/-- A vector over the fissile cells as a density. -/
noncomputable def spread (x : Src K) (v : Cell x → K) (c : Nat) : K :=
  open Classical in if h : ∃ hc : c < x.N, Fissile x c then v ⟨⟨c, h.1⟩, h.2⟩ else 0

theorem spread_at (v : Cell x → K) (i : Cell x) : spread x v i.1.1 = v i := by
  unfold spread
  rw [dif_pos ⟨i.1.2, i.2⟩]

theorem spread_off (v : Cell x → K) {c : Nat} (hF : ¬ Fissile x c) : spread x v c = 0 := by
  unfold spread
  rw [dif_neg (fun h => hF h.2)]

theorem sum_cells (d : Nat → K) (h0 : ∀ c < x.N, ¬ Fissile x c → d c = 0) :
    ∑ c ∈ range x.N, d c = ∑ i : Cell x, d i.1.1 := by
  classical
  have : ∑ c ∈ range x.N, d c = ∑ c ∈ (range x.N).filter (Fissile x), d c := by
    refine (sum_subset (filter_subset _ _) fun c hc hn => h0 c (mem_range.1 hc) fun hF => ?_).symm
    exact hn (mem_filter.2 ⟨hc, hF⟩)
  rw [this]
  symm
  refine sum_bij (fun (j : Cell x) _ => j.1.1) (fun j _ => mem_filter.2 ⟨mem_range.2 j.1.2, j.2⟩)
    (fun a _ b _ hab => Subtype.ext (Fin.ext hab)) (fun b hb => ?_) (fun j _ => rfl)
  have := mem_filter.1 hb
  exact ⟨⟨⟨b, mem_range.1 this.1⟩, this.2⟩, mem_univ _, rfl⟩

/-- Of a mixing problem, every mode whose density is not negative is positive in every fissile cell. -/
theorem C133_positive (h : Solver x S) (hd : Data x) (hM : Mixing x S) {k : K} {d : Nat → K} (hm : Mode x S k d)
    (h0 : k ≠ 0) (hn : ∀ c < x.N, 0 ≤ d c) (hne : ∃ c < x.N, d c ≠ 0) : 0 < k ∧ ∀ c, Fissile x c → 0 < d c := by
  obtain ⟨c0, hc0, hd0⟩ := hne
  have hF0 : Fissile x c0 := by
    by_contra hF
    exact hd0 (mode_off h0 hm hc0 hF)
  have hp0 : 0 < d c0 := lt_of_le_of_ne (hn c0 hc0) (Ne.symm hd0)
  have key : ∀ c, Fissile x c → 0 < k * d c := by
    intro c hF
    rw [← hm c hF.1]
    have e := fop_mono h hd (d := fun i => d c0 * (if i = c0 then 1 else 0)) (d' := d) (fun i hi => by
      split
      · next e => rw [e, mul_one]
      · rw [mul_zero]; exact hn i hi) hF.1
    rw [fop_smul h _ _ hF.1] at e
    exact (mul_pos hp0 (hM c0 hF0 c hF)).trans_le e
  have hk : 0 < k := (pos_iff_pos_of_mul_pos (key c0 hF0)).2 hp0
  exact ⟨hk, fun c hF => (pos_iff_pos_of_mul_pos (key c hF)).1 hk⟩

/-- And the density of the fundamental mode is unique up to a factor. -/
theorem C133_shape (h : Solver x S) (hd : Data x) (hM : Mixing x S) {k : K} {d d' : Nat → K} (hm : Mode x S k d)
    (h0 : 0 < k) (hp : ∀ c, Fissile x c → 0 < d c) (hne : ∃ c, Fissile x c) (hm' : Mode x S k d') :
    ∃ t, ∀ c < x.N, d' c = t * d c := by
  obtain ⟨c0, hF0⟩ := hne
  haveI : Nonempty (Cell x) := ⟨⟨⟨c0, hF0.1⟩, hF0⟩⟩
  obtain ⟨t, ht⟩ := Perron.simple (a := fmat x S) (fmat_pos hM) (k := k) (v := fun i => d i.1.1) (fun i => hp _ i.2)
    (fun i => by rw [← fop_app h hd d (fun c hc => mode_off h0.ne' hm hc)]; exact hm _ i.1.2) (y := fun i => d' i.1.1)
    (fun i => by rw [← fop_app h hd d' (fun c hc => mode_off h0.ne' hm' hc)]; exact hm' _ i.1.2)
  refine ⟨t, fun c hc => ?_⟩
  by_cases hF : Fissile x c
  · exact ht ⟨⟨c, hc⟩, hF⟩
  · rw [mode_off h0.ne' hm hc hF, mode_off h0.ne' hm' hc hF, mul_zero]

end main

/-- A mixing problem has a fundamental mode. -/
theorem C133_exists {x : Src ℝ} {S : (Nat → Nat → ℝ) → Nat → Nat → ℝ} (h : Solver x S) (hd : Data x) (hM : Mixing x S)
    (hne : ∃ c, Fissile x c) : ∃ k > 0, ∃ d : Nat → ℝ, Mode x S k d ∧ ∀ c, Fissile x c → 0 < d c := by
  obtain ⟨c0, hF0⟩ := hne
  haveI : Nonempty (Cell x) := ⟨⟨⟨c0, hF0.1⟩, hF0⟩⟩
  obtain ⟨k, k0, v, v0, hv⟩ := Perron.exists_eigen (fmat_pos hM)
  refine ⟨k, k0, spread x v, fun c hc => ?_, fun c hF => ?_⟩
  · by_cases hF : Fissile x c
    · have := fop_app h hd (spread x v) (fun c _ hF => spread_off v hF) ⟨⟨c, hc⟩, hF⟩
      have e : (fun j : Cell x => spread x v j.1.1) = v := funext (spread_at v)
      rw [e, hv] at this
      rw [this, ← spread_at v ⟨⟨c, hc⟩, hF⟩]
    · rw [fop_off x S _ hc hF, spread_off v hF, mul_zero]
  · have := spread_at v ⟨⟨c, hF.1⟩, hF⟩
    dsimp only at this
    rw [this]
    exact v0 _

/-! ## C134: power iteration -/

section run
variable {K : Type} [Field K] [LinearOrder K] [IsStrictOrderedRing K]
variable {p : PI K} {S : (Nat → Nat → K) → Nat → Nat → K}

/-- The first density, which is the production cross section, is felt by some fissile cell.  In the forward mode: some
    cell is fissile. -/
def Seeded (x : Src K) : Prop := ∃ c, Fissile x c ∧ ∑ g ∈ range x.mat.G, x.mat.nuSigF g (x.mmap c) ≠ 0

theorem nuSigF_nonneg {x : Src K} (hd : Data x) : ∀ g < x.mat.G, ∀ c < x.N, 0 ≤ x.mat.nuSigF g (x.mmap c) := by
  intro g hg c hc
  have h1 := hd.emits g hg c hc
  have h2 := hd.makes g hg c hc
  unfold emits at h1
  unfold makes at h2
  cases hx : x.adjoint <;> simp only [hx, if_true, Bool.false_eq_true, if_false] at h1 h2 <;> assumption

theorem seeded_forward {x : Src K} (hd : Data x) (ha : x.adjoint = false) (hne : ∃ c, Fissile x c) : Seeded x := by
  obtain ⟨c, hF⟩ := hne
  refine ⟨c, hF, ?_⟩
  obtain ⟨hc, g, hg, hn⟩ := hF
  unfold makes at hn
  rw [ha, if_neg (by simp)] at hn
  have hnn := nuSigF_nonneg hd
  exact (sum_pos' (fun g hg => hnn g (mem_range.1 hg) c hc) ⟨g, mem_range.2 hg, lt_of_le_of_ne (hnn g hg c hc)
    (Ne.symm hn)⟩).ne'

theorem seeded_sum {x : Src K} (h : Seeded x) : ∃ c < x.N, ∑ g ∈ range x.mat.G, x.mat.nuSigF g (x.mmap c) ≠ 0 := by
  obtain ⟨c, hF, hn⟩ := h
  exact ⟨c, hF.1, hn⟩

theorem start_dens (p : PI K) (hd : Data p.x) (hs : Seeded p.x) (phi : Nat → Nat → K) :
    (∀ c < p.x.N, 0 ≤ (p.start phi).dens c) ∧ ∃ c, Fissile p.x c ∧ 0 < (p.start phi).dens c := by
  obtain ⟨_, t, t0, h2⟩ := C25_initialize p.x (seeded_sum hs)
  have e : ∀ c < p.x.N, (p.start phi).dens c = (∑ g ∈ range p.x.mat.G, p.x.mat.nuSigF g (p.x.mmap c)) * t := by
    intro c hc
    unfold PI.start
    dsimp only
    rw [h2]
    simp [List.getD_eq_getElem?_getD, hc]
  have nn : ∀ c < p.x.N, 0 ≤ ∑ g ∈ range p.x.mat.G, p.x.mat.nuSigF g (p.x.mmap c) := fun c hc =>
    sum_nonneg fun g hg => nuSigF_nonneg hd g (mem_range.1 hg) c hc
  refine ⟨fun c hc => ?_, ?_⟩
  · rw [e c hc]
    exact mul_nonneg (nn c hc) t0.le
  · obtain ⟨c, hF, hn⟩ := hs
    refine ⟨c, hF, ?_⟩
    rw [e c hF.1]
    exact mul_pos (lt_of_le_of_ne (nn c hF.1) (Ne.symm hn)) t0

/-- What all theorems below assume. -/
structure Sound (p : PI K) (S : (Nat → Nat → K) → Nat → Nat → K) : Prop where
  exact : Exact p S
  solver : Solver p.x S
  data : Data p.x
  mixing : Mixing p.x S
  seeded : Seeded p.x
  unrelaxed : p.omega = 1

variable (hS : Sound p S) (phi : Nat → Nat → K)
include hS

theorem fop_mix {d : Nat → K} (h0 : ∀ c < p.x.N, 0 ≤ d c) (hne : ∃ c, Fissile p.x c ∧ 0 < d c) {c : Nat}
    (hF : Fissile p.x c) : 0 < fop p.x S d c := by
  obtain ⟨c0, hF0, hp0⟩ := hne
  have e := fop_mono hS.solver hS.data (d := fun i => d c0 * (if i = c0 then 1 else 0)) (d' := d) (fun i hi => by
    split
    · next e => rw [e, mul_one]
    · rw [mul_zero]; exact h0 i hi) hF.1
  rw [fop_smul hS.solver _ _ hF.1] at e
  exact (mul_pos hp0 (hS.mixing c0 hF0 c hF)).trans_le e

theorem powers (n : Nat) : (∀ c, Fissile p.x c → 0 < (fop p.x S)^[n + 1] (p.start phi).dens c) ∧
    ∀ c < p.x.N, ¬ Fissile p.x c → (fop p.x S)^[n + 1] (p.start phi).dens c = 0 := by
  obtain ⟨h0, h1⟩ := start_dens p hS.data hS.seeded phi
  refine ⟨?_, fun c hc hF => by rw [Function.iterate_succ_apply']; exact fop_off p.x S _ hc hF⟩
  induction n with
  | zero => exact fun c hF => fop_mix hS h0 h1 hF
  | succ n ih =>
    intro c hF
    rw [Function.iterate_succ_apply']
    refine fop_mix hS (fun c hc => ?_) ⟨c, hF, ih c hF⟩ hF
    by_cases hFc : Fissile p.x c
    · exact (ih c hFc).le
    · rw [Function.iterate_succ_apply', fop_off p.x S _ hc hFc]

theorem powers_nonneg (n : Nat) : ∀ c < p.x.N, 0 ≤ (fop p.x S)^[n] (p.start phi).dens c := by
  intro c hc
  cases n with
  | zero => exact (start_dens p hS.data hS.seeded phi).1 c hc
  | succ n =>
    by_cases hF : Fissile p.x c
    · exact ((powers hS phi n).1 c hF).le
    · exact ((powers hS phi n).2 c hc hF).ge

theorem powers_norm (n : Nat) : 0 < nrm p.x.N ((fop p.x S)^[n] (p.start phi).dens) := by
  obtain ⟨c, hF, hp⟩ : ∃ c, Fissile p.x c ∧ 0 < (fop p.x S)^[n] (p.start phi).dens c := by
    cases n with
    | zero => exact (start_dens p hS.data hS.seeded phi).2
    | succ n =>
      obtain ⟨c, hF, _⟩ := hS.seeded
      exact ⟨c, hF, (powers hS phi n).1 c hF⟩
  exact sum_pos' (fun _ _ => abs_nonneg _) ⟨c, mem_range.2 hF.1, abs_pos.2 hp.ne'⟩

theorem dens_power (n : Nat) : (∃ a : K, 0 < a ∧ (p.after phi n).dens = fun c => a * (fop p.x S)^[n] (p.start phi).dens c) ∧
    0 < (p.after phi n).keff ∧ (0 < n → (p.after phi n).keff =
      nrm p.x.N ((fop p.x S)^[n] (p.start phi).dens) / nrm p.x.N ((fop p.x S)^[n - 1] (p.start phi).dens)) :=
  C56_power_method p S hS.exact phi hS.unrelaxed n fun j _ => (powers_norm hS phi j).ne'

/-- The densities of power iteration are positive in the fissile cells and zero elsewhere, and so are its estimates, whose
    value is the sum of the density. -/
theorem C134_densities (n : Nat) : (∀ c, Fissile p.x c → 0 < (p.after phi (n + 1)).dens c) ∧
    (∀ c < p.x.N, ¬ Fissile p.x c → (p.after phi (n + 1)).dens c = 0) ∧ 0 < (p.after phi (n + 1)).keff ∧
    ∑ c ∈ range p.x.N, (p.after phi (n + 1)).dens c = (p.after phi (n + 1)).keff := by
  obtain ⟨⟨a, a0, e⟩, hk, _⟩ := dens_power hS phi (n + 1)
  obtain ⟨h1, h2⟩ := powers hS phi n
  have hp : ∀ c, Fissile p.x c → 0 < (p.after phi (n + 1)).dens c := fun c hF => by
    rw [e]
    exact mul_pos a0 (h1 c hF)
  have hz : ∀ c < p.x.N, ¬ Fissile p.x c → (p.after phi (n + 1)).dens c = 0 := fun c hc hF => by
    rw [e]
    dsimp only
    rw [h2 c hc hF, mul_zero]
  refine ⟨hp, hz, hk, ?_⟩
  rw [← C56_norm p phi hS.unrelaxed (seeded_sum hS.seeded) (n + 1) fun j _ => ?_]
  · refine sum_congr rfl fun c hc => (abs_of_nonneg ?_).symm
    by_cases hF : Fissile p.x c
    · exact (hp c hF).le
    · exact (hz c (mem_range.1 hc) hF).ge
  · obtain ⟨⟨b, b0, e⟩, _⟩ := dens_power hS phi j
    rw [e, nrm_smul, abs_of_pos b0]
    exact (mul_pos b0 (powers_norm hS phi j)).ne'

theorem dens_step (n : Nat) (c : Nat) :
    fop p.x S (p.after phi n).dens c = (p.after phi n).keff * (p.after phi (n + 1)).dens c := by
  have hk := (dens_power hS phi n).2.1
  rw [after_succ, step_dens p S hS.exact]
  dsimp only
  field_simp

/-- Two successive densities of a run enclose the multiplication factor: it lies between the smallest and the largest
    factor by which the density of a fissile cell has grown, times the estimate. -/
theorem C134_enclosed {k lo hi : K} {d : Nat → K} (hm : Mode p.x S k d) (h0 : 0 < k) (hp : ∀ c, Fissile p.x c → 0 < d c)
    (n : Nat) (hl : ∀ c, Fissile p.x c → lo * (p.after phi (n + 1)).dens c ≤
      (p.after phi (n + 1)).keff * (p.after phi (n + 2)).dens c)
    (hu : ∀ c, Fissile p.x c → (p.after phi (n + 1)).keff * (p.after phi (n + 2)).dens c ≤
      hi * (p.after phi (n + 1)).dens c) : lo ≤ k ∧ k ≤ hi := by
  obtain ⟨h1, h2, _⟩ := C134_densities hS phi n
  obtain ⟨c, hF, _⟩ := hS.seeded
  refine C133_quotients hS.solver hS.data hm h0 hp ⟨c, hF⟩ h1 h2 (fun c hc => ?_) fun c hc => ?_
  · rw [dens_step hS phi]
    exact hl c hc
  · rw [dens_step hS phi]
    exact hu c hc

theorem powers_app (n : Nat) (i : Cell p.x) : (fop p.x S)^[n + 1] (p.start phi).dens i.1.1 =
    (Perron.app (fmat p.x S))^[n] (fun j => (fop p.x S)^[1] (p.start phi).dens j.1.1) i := by
  induction n generalizing i with
  | zero => rfl
  | succ n ih =>
    rw [Function.iterate_succ_apply', Function.iterate_succ_apply' (f := Perron.app _),
      fop_app hS.solver hS.data _ (powers hS phi n).2]
    congr 1
    funext j
    exact ih j

theorem powers_sum (n : Nat) : nrm p.x.N ((fop p.x S)^[n + 1] (p.start phi).dens) =
    ∑ i, (Perron.app (fmat p.x S))^[n] (fun j : Cell p.x => (fop p.x S)^[1] (p.start phi).dens j.1.1) i := by
  have : nrm p.x.N ((fop p.x S)^[n + 1] (p.start phi).dens) = ∑ c ∈ range p.x.N, (fop p.x S)^[n + 1] (p.start phi).dens c :=
    sum_congr rfl fun c hc => abs_of_nonneg (powers_nonneg hS phi (n + 1) c (mem_range.1 hc))
  rw [this, sum_cells _ (powers hS phi n).2]
  exact sum_congr rfl fun i _ => powers_app hS phi n i

/-- Power iteration converges geometrically to the fundamental mode: the estimates to its factor, and the densities,
    divided by their sums, to its density. -/
theorem C134_converges {k : K} {d : Nat → K} (hm : Mode p.x S k d) (h0 : 0 < k) (hp : ∀ c, Fissile p.x c → 0 < d c) :
    ∃ rho, 0 ≤ rho ∧ rho < 1 ∧ ∃ C, 0 ≤ C ∧ ∀ n, |(p.after phi (n + 2)).keff - k| ≤ rho ^ n * C ∧
      ∀ c < p.x.N, |(p.after phi (n + 1)).dens c / (p.after phi (n + 1)).keff - d c / ∑ i ∈ range p.x.N, d i| ≤ rho ^ n * C := by
  obtain ⟨c0, hF0, _⟩ := hS.seeded
  haveI : Nonempty (Cell p.x) := ⟨⟨⟨c0, hF0.1⟩, hF0⟩⟩
  obtain ⟨lo, hi, hmix⟩ := Perron.mix_of_pos (fmat_pos hS.mixing)
  obtain ⟨t0, t1⟩ := hmix.theta
  have hoff : ∀ c < p.x.N, ¬ Fissile p.x c → d c = 0 := fun c hc => mode_off h0.ne' hm hc
  set x1 : Cell p.x → K := fun j => (fop p.x S)^[1] (p.start phi).dens j.1.1 with hx1
  have x0 : ∀ i, 0 < x1 i := fun i => (powers hS phi 0).1 _ i.2
  set v : Cell p.x → K := fun j => d j.1.1 with hv
  have v0 : ∀ i, 0 < v i := fun i => hp _ i.2
  have hkv : ∀ i, Perron.app (fmat p.x S) v i = k * v i := fun i => by
    rw [hv, ← fop_app hS.solver hS.data d hoff]
    exact hm _ i.1.2
  have hdv : ∑ i ∈ range p.x.N, d i = ∑ i, v i := sum_cells d hoff
  obtain ⟨a1, ha1⟩ := Finite.exists_min fun i => x1 i / v i
  obtain ⟨a2, ha2⟩ := Finite.exists_max fun i => x1 i / v i
  obtain ⟨a3, ha3⟩ := Finite.exists_min fun i => Perron.app (fmat p.x S) x1 i / x1 i
  obtain ⟨a4, ha4⟩ := Finite.exists_max fun i => Perron.app (fmat p.x S) x1 i / x1 i
  have b1 : ∀ i, x1 a1 / v a1 * v i ≤ x1 i := fun i => (le_div_iff₀ (v0 i)).1 (ha1 i)
  have b2 : ∀ i, x1 i ≤ x1 a2 / v a2 * v i := fun i => (div_le_iff₀ (v0 i)).1 (ha2 i)
  have b3 : ∀ i, Perron.app (fmat p.x S) x1 a3 / x1 a3 * x1 i ≤ Perron.app (fmat p.x S) x1 i := fun i =>
    (le_div_iff₀ (x0 i)).1 (ha3 i)
  have b4 : ∀ i, Perron.app (fmat p.x S) x1 i ≤ Perron.app (fmat p.x S) x1 a4 / x1 a4 * x1 i := fun i =>
    (div_le_iff₀ (x0 i)).1 (ha4 i)
  set pp := x1 a1 / v a1
  set qq := x1 a2 / v a2
  set mm := Perron.app (fmat p.x S) x1 a3 / x1 a3
  set MM := Perron.app (fmat p.x S) x1 a4 / x1 a4
  have p0 : 0 < pp := div_pos (x0 _) (v0 _)
  have hpq : pp ≤ qq := ha1 a2
  have hmM : mm ≤ MM := ha3 a4
  have c1 : 0 ≤ (qq - pp) / pp := div_nonneg (sub_nonneg.2 hpq) p0.le
  have r0 : 0 ≤ 1 - lo / hi := by linarith
  refine ⟨1 - lo / hi, r0, by linarith, (MM - mm) + (qq - pp) / pp, by linarith, fun n => ⟨?_, fun c hc => ?_⟩⟩
  · obtain ⟨m', M', _, _, k3, k4⟩ := Perron.bands hmix x0 b3 b4 n
    have hpn := Perron.iter_pos hmix.entry x0 n
    obtain ⟨q1, q2⟩ := Perron.quot_between hpn (fun i => (k4 i).1) (fun i => (k4 i).2)
    obtain ⟨e1, e2⟩ := Perron.encloses (fun i j => (hmix.entry i j).le) v0 hkv hpn (fun i => (k4 i).1) (fun i => (k4 i).2)
    have ek : (p.after phi (n + 2)).keff = Perron.quot (fmat p.x S) ((Perron.app (fmat p.x S))^[n] x1) := by
      rw [(dens_power hS phi (n + 2)).2.2 (by omega), powers_sum hS phi (n + 1), show n + 2 - 1 = n + 1 by omega,
        powers_sum hS phi n]
      unfold Perron.quot
      simp only [Function.iterate_succ_apply', hx1]
    rw [ek, mul_add]
    have := mul_nonneg (pow_nonneg r0 n) c1
    rw [abs_le]
    constructor <;> linarith
  · obtain ⟨⟨a, a0, e⟩, _⟩ := dens_power hS phi (n + 1)
    obtain ⟨d1, d2, d3, d4⟩ := C134_densities hS phi n
    have hR : 0 ≤ (1 - lo / hi) ^ n * (MM - mm + (qq - pp) / pp) := mul_nonneg (pow_nonneg r0 n) (by linarith)
    by_cases hF : Fissile p.x c
    · have sh := Perron.shape hmix h0 v0 hkv p0 b1 b2 n ⟨⟨c, hc⟩, hF⟩
      have hY := powers_norm hS phi (n + 1)
      have es : (p.after phi (n + 1)).dens c / (p.after phi (n + 1)).keff =
          (Perron.app (fmat p.x S))^[n] x1 ⟨⟨c, hc⟩, hF⟩ / ∑ j, (Perron.app (fmat p.x S))^[n] x1 j := by
        rw [← d4, e]
        have h1 : ∑ c ∈ range p.x.N, a * (fop p.x S)^[n + 1] (p.start phi).dens c =
            a * nrm p.x.N ((fop p.x S)^[n + 1] (p.start phi).dens) := by
          rw [← mul_sum]
          congr 1
          exact sum_congr rfl fun c hc => (abs_of_nonneg (powers_nonneg hS phi (n + 1) c (mem_range.1 hc))).symm
        have h2 := powers_app hS phi n ⟨⟨c, hc⟩, hF⟩
        dsimp only at h2 ⊢
        rw [h1, h2, powers_sum hS phi n, mul_div_mul_left _ _ a0.ne']
      rw [es, hdv]
      refine sh.trans ?_
      have hle : v ⟨⟨c, hc⟩, hF⟩ / ∑ j, v j ≤ 1 := by
        rw [div_le_one (Perron.sum_pos' v0)]
        exact single_le_sum (fun j _ => (v0 j).le) (mem_univ _)
      have h3 : 0 ≤ (1 - lo / hi) ^ n * ((qq - pp) / pp) := mul_nonneg (pow_nonneg r0 n) c1
      have h4 := mul_le_of_le_one_right h3 hle
      have h5 : 0 ≤ (1 - lo / hi) ^ n * (MM - mm) := mul_nonneg (pow_nonneg r0 n) (by linarith)
      rw [mul_add]
      linarith
    · rw [d2 c hc hF, hoff c hc hF, zero_div, zero_div, sub_zero, abs_zero]
      exact hR

/-- Such bounds hold for all later densities and estimates. -/
theorem C134_nested {lo hi : K} (n : Nat) (hl : ∀ c, Fissile p.x c → lo * (p.after phi (n + 1)).dens c ≤
      (p.after phi (n + 1)).keff * (p.after phi (n + 2)).dens c)
    (hu : ∀ c, Fissile p.x c → (p.after phi (n + 1)).keff * (p.after phi (n + 2)).dens c ≤
      hi * (p.after phi (n + 1)).dens c) :
    (∀ c, Fissile p.x c → lo * (p.after phi (n + 2)).dens c ≤ (p.after phi (n + 2)).keff * (p.after phi (n + 3)).dens c ∧
      (p.after phi (n + 2)).keff * (p.after phi (n + 3)).dens c ≤ hi * (p.after phi (n + 2)).dens c) ∧
    lo ≤ (p.after phi (n + 2)).keff ∧ (p.after phi (n + 2)).keff ≤ hi := by
  obtain ⟨h1, h2, h3, h4⟩ := C134_densities hS phi n
  obtain ⟨h1', h2', h3', h4'⟩ := C134_densities hS phi (n + 1)
  have al : ∀ c < p.x.N, lo * (p.after phi (n + 1)).dens c ≤ fop p.x S (p.after phi (n + 1)).dens c := fun c hc => by
    by_cases hF : Fissile p.x c
    · rw [dens_step hS phi]
      exact hl c hF
    · rw [h2 c hc hF, mul_zero, fop_off p.x S _ hc hF]
  have au : ∀ c < p.x.N, fop p.x S (p.after phi (n + 1)).dens c ≤ hi * (p.after phi (n + 1)).dens c := fun c hc => by
    by_cases hF : Fissile p.x c
    · rw [dens_step hS phi]
      exact hu c hF
    · rw [h2 c hc hF, mul_zero, fop_off p.x S _ hc hF]
  have eA : (p.after phi (n + 2)).dens = fun c => 1 / (p.after phi (n + 1)).keff * fop p.x S (p.after phi (n + 1)).dens c := by
    rw [after_succ, step_dens p S hS.exact]
  have hq : 0 < 1 / (p.after phi (n + 1)).keff := one_div_pos.2 h3
  refine ⟨fun c hF => ?_, ?_, ?_⟩
  · rw [← dens_step hS phi (n + 2), eA, fop_smul hS.solver _ _ hF.1]
    dsimp only
    have b1 := fop_mono hS.solver hS.data al hF.1
    have b2 := fop_mono hS.solver hS.data au hF.1
    rw [fop_smul hS.solver _ _ hF.1] at b1 b2
    have b1 := mul_le_mul_of_nonneg_left b1 hq.le
    have b2 := mul_le_mul_of_nonneg_left b2 hq.le
    constructor <;> linarith
  · have := sum_le_sum fun c (hc : c ∈ range p.x.N) => mul_le_mul_of_nonneg_left (al c (mem_range.1 hc)) hq.le
    have e2 : ∀ c, 1 / (p.after phi (n + 1)).keff * fop p.x S (p.after phi (n + 1)).dens c = (p.after phi (n + 2)).dens c :=
      fun c => by rw [eA]
    simp only [e2] at this
    rw [h4', ← mul_sum, ← mul_sum, h4] at this
    have e3 : 1 / (p.after phi (n + 1)).keff * (lo * (p.after phi (n + 1)).keff) = lo := by field_simp
    linarith
  · have := sum_le_sum fun c (hc : c ∈ range p.x.N) => mul_le_mul_of_nonneg_left (au c (mem_range.1 hc)) hq.le
    have e2 : ∀ c, 1 / (p.after phi (n + 1)).keff * fop p.x S (p.after phi (n + 1)).dens c = (p.after phi (n + 2)).dens c :=
      fun c => by rw [eA]
    simp only [e2] at this
    rw [h4', ← mul_sum, ← mul_sum, h4] at this
    have e3 : 1 / (p.after phi (n + 1)).keff * (hi * (p.after phi (n + 1)).keff) = hi := by field_simp
    linarith

/-- No fissile cell's part of the density falls below a fixed one. -/
theorem dens_floor {k : K} {d : Nat → K} (hm : Mode p.x S k d) (h0 : 0 < k) (hp : ∀ c, Fissile p.x c → 0 < d c) :
    ∃ t > 0, ∀ n c, Fissile p.x c → t * (p.after phi (n + 1)).keff ≤ (p.after phi (n + 1)).dens c := by
  obtain ⟨c0, hF0, _⟩ := hS.seeded
  haveI : Nonempty (Cell p.x) := ⟨⟨⟨c0, hF0.1⟩, hF0⟩⟩
  obtain ⟨lo, hi, hmix⟩ := Perron.mix_of_pos (fmat_pos hS.mixing)
  have hoff : ∀ c < p.x.N, ¬ Fissile p.x c → d c = 0 := fun c hc => mode_off h0.ne' hm hc
  set x1 : Cell p.x → K := fun j => (fop p.x S)^[1] (p.start phi).dens j.1.1 with hx1
  have x0 : ∀ i, 0 < x1 i := fun i => (powers hS phi 0).1 _ i.2
  set v : Cell p.x → K := fun j => d j.1.1 with hv
  have v0 : ∀ i, 0 < v i := fun i => hp _ i.2
  have hkv : ∀ i, Perron.app (fmat p.x S) v i = k * v i := fun i => by
    rw [hv, ← fop_app hS.solver hS.data d hoff]
    exact hm _ i.1.2
  obtain ⟨a1, ha1⟩ := Finite.exists_min fun i => x1 i / v i
  obtain ⟨a2, ha2⟩ := Finite.exists_max fun i => x1 i / v i
  obtain ⟨a5, ha5⟩ := Finite.exists_min v
  have b1 : ∀ i, x1 a1 / v a1 * v i ≤ x1 i := fun i => (le_div_iff₀ (v0 i)).1 (ha1 i)
  have b2 : ∀ i, x1 i ≤ x1 a2 / v a2 * v i := fun i => (div_le_iff₀ (v0 i)).1 (ha2 i)
  set pp := x1 a1 / v a1
  set qq := x1 a2 / v a2
  have p0 : 0 < pp := div_pos (x0 _) (v0 _)
  have q0 : 0 < qq := div_pos (x0 _) (v0 _)
  have hV := Perron.sum_pos' v0
  have hva := v0 a5
  refine ⟨pp / qq * (v a5 / ∑ j, v j), by positivity, fun n c hF => ?_⟩
  obtain ⟨p', q', k1, k2, _, k4⟩ := Perron.squeeze hmix h0 v0 hkv b1 b2 n
  obtain ⟨⟨a, a0, e⟩, _⟩ := dens_power hS phi (n + 1)
  obtain ⟨_, _, _, d4⟩ := C134_densities hS phi n
  have hkn : 0 < k ^ n := pow_pos h0 n
  have h1 : (p.after phi (n + 1)).keff = a * ∑ j, (Perron.app (fmat p.x S))^[n] x1 j := by
    rw [← d4, e, ← mul_sum, ← powers_sum hS phi n]
    congr 1
    exact sum_congr rfl fun c hc => (abs_of_nonneg (powers_nonneg hS phi (n + 1) c (mem_range.1 hc))).symm
  have h2 := powers_app hS phi n ⟨⟨c, hF.1⟩, hF⟩
  dsimp only at h2
  rw [h1, e]
  dsimp only
  rw [h2]
  have u1 : ∑ j, (Perron.app (fmat p.x S))^[n] x1 j ≤ qq * (k ^ n * ∑ j, v j) := by
    rw [mul_sum, mul_sum]
    exact sum_le_sum fun i _ => (k4 i).2.trans (mul_le_mul_of_nonneg_right k2 (mul_pos hkn (v0 i)).le)
  have u2 : pp * (k ^ n * v a5) ≤ (Perron.app (fmat p.x S))^[n] x1 ⟨⟨c, hF.1⟩, hF⟩ :=
    (mul_le_mul k1 (mul_le_mul_of_nonneg_left (ha5 _) hkn.le) (mul_pos hkn (v0 _)).le (p0.le.trans k1)).trans (k4 _).1
  calc pp / qq * (v a5 / ∑ j, v j) * (a * ∑ j, (Perron.app (fmat p.x S))^[n] x1 j)
      = a * (pp / qq * (v a5 / ∑ j, v j) * ∑ j, (Perron.app (fmat p.x S))^[n] x1 j) := by ring
    _ ≤ a * (pp / qq * (v a5 / ∑ j, v j) * (qq * (k ^ n * ∑ j, v j))) :=
        mul_le_mul_of_nonneg_left (mul_le_mul_of_nonneg_left u1 (by positivity)) a0.le
    _ = a * (pp * (k ^ n * v a5)) := by field_simp
    _ ≤ _ := mul_le_mul_of_nonneg_left u2 a0.le

/-- An estimate found with a small error is close to the multiplication factor, in proportion to the error. -/
theorem C134_stopped {k : K} {d : Nat → K} (hm : Mode p.x S k d) (h0 : 0 < k) (hp : ∀ c, Fissile p.x c → 0 < d c) :
    ∃ C > 0, ∀ n e, (p.after phi (n + 2)).error = some e → |(p.after phi (n + 2)).keff - k| ≤ C * e := by
  obtain ⟨t, t0, ht⟩ := dens_floor hS phi hm h0 hp
  refine ⟨1 + 1 / t, by positivity, fun n e he => ?_⟩
  obtain ⟨h1, h2, h3, h4⟩ := C134_densities hS phi n
  have hn : nrm p.x.N (p.after phi (n + 1)).dens = (p.after phi (n + 1)).keff := by
    rw [← h4]
    refine sum_congr rfl fun c hc => abs_of_nonneg ?_
    by_cases hF : Fissile p.x c
    · exact (h1 c hF).le
    · exact (h2 c (mem_range.1 hc) hF).ge
  obtain ⟨s1, s2⟩ := C56_stopped p S hS.exact phi hS.unrelaxed (n + 1) h3 (by rw [hn]; exact h3) e he
  rw [hn] at s2
  have e0 : 0 ≤ e := by
    have : 0 ≤ (p.after phi (n + 1)).keff * e := by rw [← s1]; exact nrm_nonneg _ _
    exact nonneg_of_mul_nonneg_right this h3
  have cell : ∀ c, Fissile p.x c → |fop p.x S (p.after phi (n + 1)).dens c -
      (p.after phi (n + 1)).keff * (p.after phi (n + 1)).dens c| ≤ e / t * (p.after phi (n + 1)).dens c := by
    intro c hF
    have l1 : |fop p.x S (p.after phi (n + 1)).dens c - (p.after phi (n + 1)).keff * (p.after phi (n + 1)).dens c| ≤
        (p.after phi (n + 1)).keff * e := by
      rw [← s1]
      exact single_le_sum (f := fun c => |fop p.x S (p.after phi (n + 1)).dens c -
        (p.after phi (n + 1)).keff * (p.after phi (n + 1)).dens c|) (fun _ _ => abs_nonneg _) (mem_range.2 hF.1)
    have l2 := mul_le_mul_of_nonneg_left (ht n c hF) (div_nonneg e0 t0.le)
    have l3 : e / t * (t * (p.after phi (n + 1)).keff) = (p.after phi (n + 1)).keff * e := by field_simp
    linarith
  obtain ⟨q1, q2⟩ := C134_enclosed hS phi hm h0 hp n (lo := (p.after phi (n + 1)).keff - e / t)
    (hi := (p.after phi (n + 1)).keff + e / t) (fun c hF => by
      rw [← dens_step hS phi (n + 1)]
      have := (abs_le.1 (cell c hF)).1
      linarith) (fun c hF => by
      rw [← dens_step hS phi (n + 1)]
      have := (abs_le.1 (cell c hF)).2
      linarith)
  have s3 : (p.after phi (n + 1)).keff * e / (p.after phi (n + 1)).keff = e := by field_simp
  rw [s3] at s2
  obtain ⟨s4, s5⟩ := abs_le.1 s2
  have e1 : (1 + 1 / t) * e = e + e / t := by ring
  rw [e1, abs_le]
  have s4 : -e ≤ (p.after phi (n + 2)).keff - (p.after phi (n + 1)).keff := s4
  have s5 : (p.after phi (n + 2)).keff - (p.after phi (n + 1)).keff ≤ e := s5
  constructor <;> linarith

theorem error_eq (n : Nat) : (p.after phi (n + 1)).error =
    some (nrm p.x.N fun c => (p.after phi (n + 1)).dens c - (p.after phi n).dens c) := by
  rw [after_succ]
  show some (Util.normResL1 (p.vec (p.relaxed (p.iterate (p.after phi n)).dens (p.after phi n).dens))
    (p.vec (p.after phi n).dens)) = _
  rw [normRes_vec]
  unfold PI.relaxed
  rw [if_neg (by simp [hS.unrelaxed])]

/-- The error falls below every tolerance. -/
theorem C134_error [Archimedean K] {k : K} {d : Nat → K} (hm : Mode p.x S k d) (h0 : 0 < k)
    (hp : ∀ c, Fissile p.x c → 0 < d c) (tol : K) (ht : 0 < tol) :
    ∃ n e, (p.after phi (n + 1)).error = some e ∧ e < tol := by
  obtain ⟨rho, r0, r1, C, C0, hC⟩ := C134_converges hS phi hm h0 hp
  set B := (p.x.N : K) * ((2 * (k + C) + 2) * C) with hB
  have B0 : 0 ≤ B := by positivity
  obtain ⟨n, hn⟩ := exists_pow_lt_of_lt_one (show 0 < tol / (B + 1) by positivity) r1
  refine ⟨n + 2, _, error_eq hS phi (n + 2), ?_⟩
  have hdn : ∀ c < p.x.N, 0 ≤ d c := fun c hc => by
    by_cases hF : Fissile p.x c
    · exact (hp c hF).le
    · exact (mode_off h0.ne' hm hc hF).ge
  have hD : 0 < ∑ i ∈ range p.x.N, d i := by
    obtain ⟨c, hF, _⟩ := hS.seeded
    exact sum_pos' (fun c hc => hdn c (mem_range.1 hc)) ⟨c, mem_range.2 hF.1, hp c hF⟩
  have hpow : ∀ m, n ≤ m → rho ^ m * C ≤ rho ^ n * C := fun m hm =>
    mul_le_mul_of_nonneg_right (pow_le_pow_of_le_one r0 r1.le hm) C0
  have hR : rho ^ n * C ≤ C := mul_le_of_le_one_left C0 (pow_le_one₀ r0 r1.le)
  have R0 : 0 ≤ rho ^ n * C := mul_nonneg (pow_nonneg r0 n) C0
  have each : ∀ c ∈ range p.x.N, |(p.after phi (n + 2 + 1)).dens c - (p.after phi (n + 2)).dens c| ≤
      (2 * (k + C) + 2) * (rho ^ n * C) := by
    intro c hc
    have hc := mem_range.1 hc
    have k1 := (hC n).1
    have k2 := ((hC (n + 1)).1).trans (hpow (n + 1) (by omega))
    have f1 := ((hC (n + 1)).2 c hc).trans (hpow (n + 1) (by omega))
    have f2 := ((hC (n + 2)).2 c hc).trans (hpow (n + 2) (by omega))
    have K1 := (C134_densities hS phi (n + 1)).2.2.1
    have K2 := (C134_densities hS phi (n + 2)).2.2.1
    have s0 : 0 ≤ d c / ∑ i ∈ range p.x.N, d i := div_nonneg (hdn c hc) hD.le
    have s1 : d c / ∑ i ∈ range p.x.N, d i ≤ 1 := by
      rw [div_le_one hD]
      exact single_le_sum (fun i hi => hdn i (mem_range.1 hi)) (mem_range.2 hc)
    change |(p.after phi (n + 3)).dens c - (p.after phi (n + 2)).dens c| ≤ _
    change |(p.after phi (n + 3)).keff - k| ≤ _ at k2
    change |(p.after phi (n + 2)).dens c / (p.after phi (n + 2)).keff - _| ≤ _ at f1
    change |(p.after phi (n + 3)).dens c / (p.after phi (n + 3)).keff - _| ≤ _ at f2
    change 0 < (p.after phi (n + 2)).keff at K1
    change 0 < (p.after phi (n + 3)).keff at K2
    generalize (p.after phi (n + 3)).keff = K2v at *
    generalize (p.after phi (n + 2)).keff = K1v at *
    generalize (p.after phi (n + 3)).dens c = D2 at *
    generalize (p.after phi (n + 2)).dens c = D1 at *
    generalize d c / ∑ i ∈ range p.x.N, d i = s at *
    generalize rho ^ n * C = R at *
    have w2 : D2 - D1 = K2v * (D2 / K2v - s) + (K2v - K1v) * s - K1v * (D1 / K1v - s) := by
      field_simp
      ring
    have m2 : K2v ≤ k + C := by have := (abs_le.1 k2).2; linarith
    have m1 : K1v ≤ k + C := by have := (abs_le.1 k1).2; linarith
    have t1 : |K2v * (D2 / K2v - s)| ≤ (k + C) * R := by
      rw [abs_mul, abs_of_pos K2]
      exact mul_le_mul m2 f2 (abs_nonneg _) (by linarith)
    have t3 : |K1v * (D1 / K1v - s)| ≤ (k + C) * R := by
      rw [abs_mul, abs_of_pos K1]
      exact mul_le_mul m1 f1 (abs_nonneg _) (by linarith)
    have t2 : |(K2v - K1v) * s| ≤ 2 * R := by
      rw [abs_mul, abs_of_nonneg s0]
      have : |K2v - K1v| ≤ 2 * R := by
        have a := abs_le.1 k1
        have b := abs_le.1 k2
        rw [abs_le]
        constructor <;> linarith [a.1, a.2, b.1, b.2]
      calc |K2v - K1v| * s ≤ |K2v - K1v| * 1 := mul_le_mul_of_nonneg_left s1 (abs_nonneg _)
        _ ≤ _ := by linarith
    rw [w2]
    have := abs_sub (K2v * (D2 / K2v - s) + (K2v - K1v) * s) (K1v * (D1 / K1v - s))
    have h' := abs_add_le (K2v * (D2 / K2v - s)) ((K2v - K1v) * s)
    linarith
  have tot : nrm p.x.N (fun c => (p.after phi (n + 2 + 1)).dens c - (p.after phi (n + 2)).dens c) ≤ rho ^ n * B := by
    refine (sum_le_sum each).trans (le_of_eq ?_)
    rw [sum_const, card_range, nsmul_eq_mul, hB]
    ring
  refine tot.trans_lt ?_
  calc rho ^ n * B ≤ rho ^ n * (B + 1) := mul_le_mul_of_nonneg_left (by linarith) (pow_nonneg r0 n)
    _ < tol / (B + 1) * (B + 1) := mul_lt_mul_of_pos_right hn (by linarith)
    _ = tol := by field_simp

/-- With a small enough tolerance and enough iterations the solver stops without a warning, and the eigenvalue it stores
    differs from the multiplication factor by no more than a fixed multiple of the tolerance. -/
theorem C134_returned [Archimedean K] {k : K} {d : Nat → K} (hm : Mode p.x S k d) (h0 : 0 < k)
    (hp : ∀ c, Fissile p.x c → 0 < d c) : ∃ C > 0, ∃ t0 > 0, ∀ tol, 0 < tol → tol ≤ t0 → ∃ n0, ∀ N, n0 ≤ N →
      ∃ r, ({ p with maxIt := N, tol := tol } : PI K).run phi = some r ∧ r.warned = false ∧ |r.keff - k| ≤ C * tol := by
  obtain ⟨C, C0, hC⟩ := C134_stopped hS phi hm h0 hp
  obtain ⟨e1, he1⟩ : ∃ e, (p.after phi 1).error = some e := ⟨_, error_eq hS phi 0⟩
  have he1' : e1 = nrm p.x.N fun c => (p.after phi 1).dens c - (p.after phi 0).dens c :=
    Option.some.inj (he1.symm.trans (error_eq hS phi 0))
  have e10 : 0 ≤ e1 := he1' ▸ nrm_nonneg _ _
  have first : e1 = 0 → (p.after phi 1).keff = k := by
    intro hz
    rw [he1'] at hz
    have hsame : ∀ c < p.x.N, (p.after phi 1).dens c = (p.after phi 0).dens c := by
      unfold nrm at hz
      rw [sum_eq_zero_iff_of_nonneg fun _ _ => abs_nonneg _] at hz
      exact fun c hc => sub_eq_zero.1 (abs_eq_zero.1 (hz c (mem_range.2 hc)))
    have hk0 : (p.after phi 0).keff = 1 := rfl
    have hmode : Mode p.x S 1 (p.after phi 0).dens := by
      intro c hc
      rw [dens_step hS phi 0 c, hk0, hsame c hc]
    obtain ⟨s1, s2⟩ := start_dens p hS.data hS.seeded phi
    obtain ⟨c0, hF0, hc0⟩ := s2
    have hpos := (C133_positive hS.solver hS.data hS.mixing hmode one_ne_zero s1 ⟨c0, hF0.1, hc0.ne'⟩).2
    rw [C133_one hS.solver hS.data hm h0 hp hmode one_pos hpos ⟨c0, hF0⟩]
    have hn : nrm p.x.N (p.after phi 1).dens = nrm p.x.N (p.after phi 0).dens :=
      sum_congr rfl fun c hc => by rw [hsame c (mem_range.1 hc)]
    have hn0 : nrm p.x.N (p.after phi 0).dens ≠ 0 := (powers_norm hS phi 0).ne'
    rw [C56_estimate p phi 0 hS.unrelaxed, hn, hk0, one_mul, div_self hn0]
  refine ⟨C, C0, if e1 = 0 then 1 else e1, ?_, fun tol ht htol => ?_⟩
  · split
    · exact one_pos
    · next h => exact lt_of_le_of_ne e10 (Ne.symm h)
  obtain ⟨n, e, he, hlt⟩ := C134_error hS phi hm h0 hp tol ht
  refine ⟨n + 2, fun N hN => ?_⟩
  have same : ∀ j, ({ p with maxIt := N, tol := tol } : PI K).after phi j = p.after phi j := fun _ => rfl
  obtain ⟨m, m0, m1, m2, m3, m4⟩ := C56_reported ({ p with maxIt := N, tol := tol } : PI K) phi
    (show 0 < N by omega)
  have hm' : m < N := by
    by_contra hge
    have hge : m = N := le_antisymm m1 (not_lt.1 hge)
    exact m3 (n + 1) (by omega) (by omega) e (by rw [same]; exact he) hlt
  obtain ⟨em, hem, heml⟩ := m4 hm'
  rw [same] at hem
  have heml : em < tol := heml
  refine ⟨_, m2, ?_, ?_⟩
  · rw [same]
    simp [hem, heml.le]
  · rw [same]
    dsimp only
    obtain ⟨j, rfl⟩ : ∃ j, m = j + 1 := ⟨m - 1, by omega⟩
    cases j with
    | zero =>
      have : em = e1 := Option.some.inj (hem.symm.trans he1)
      have hz : e1 = 0 := by
        by_contra hne
        rw [if_neg hne] at htol
        rw [this] at heml
        exact absurd heml (not_lt.2 htol)
      rw [zero_add, first hz, sub_self, abs_zero]
      positivity
    | succ j =>
      exact (hC j em hem).trans (mul_le_mul_of_nonneg_left heml.le C0.le)

end run

/-! ## A case: two cells of different materials -/

/-- Two materials, one group; the second makes twice the neutrons per flux. -/
def twoMat : Mat ℚ := { (Mat.new 2 1 : Mat ℚ) with nuSigF := fun _ m => if m = 0 then 1 else 2, chi := fun _ _ => 1 }

def twoX : Src ℚ := ⟨twoMat, 2, fun c => c, false⟩

/-- Fluxes of two cells that see each other. -/
def twoS (q : Nat → Nat → ℚ) (g c : Nat) : ℚ :=
  if g = 0 then (if c = 0 then 3 * q 0 0 + q 0 1 else if c = 1 then q 0 0 + q 0 1 else 0) else 0

def twoPI (n : Nat) (tol : ℚ) : PI ℚ := ⟨twoX, fun q _ => twoS q, n, tol, 1⟩

theorem two_solver : Solver twoX twoS where
  lin := fun s t q q' g _ c _ => by
    unfold twoS
    split_ifs <;> ring
  pos := fun q h g _ c _ => by
    have h0 := h 0 (by decide) 0 (by decide)
    have h1 := h 0 (by decide) 1 (by decide)
    unfold twoS
    split_ifs <;> first | exact le_refl _ | linarith

theorem two_data : Data twoX where
  emits := by
    have : ∀ g < 1, ∀ c < 2, 0 ≤ emits twoX g c := by decide +kernel
    exact this
  makes := by
    have : ∀ g < 1, ∀ c < 2, 0 ≤ makes twoX g c := by decide +kernel
    exact this

theorem two_fissile (c : Nat) : Fissile twoX c ↔ c < 2 := by
  constructor
  · exact fun h => h.1
  · intro h
    have : ∀ c < 2, makes twoX 0 c ≠ 0 := by decide +kernel
    exact ⟨h, 0, by decide, this c h⟩

theorem two_mixing : Mixing twoX twoS := by
  have : ∀ c < 2, ∀ c' < 2, 0 < fop twoX twoS (fun i => if i = c then 1 else 0) c' := by decide +kernel
  exact fun c hc c' hc' => this c hc.1 c' hc'.1

theorem two_sound (n : Nat) (tol : ℚ) : Sound (twoPI n tol) twoS where
  exact := ⟨fun _ _ => rfl, fun a q => by
    funext g c
    unfold twoS
    split_ifs <;> ring⟩
  solver := two_solver
  data := two_data
  mixing := two_mixing
  seeded := seeded_forward two_data rfl ⟨0, (two_fissile 0).2 (by decide)⟩
  unrelaxed := rfl

theorem two_mode : Mode twoX twoS 4 fun _ => 1 := by
  have : ∀ c < 2, fop twoX twoS (fun _ => 1) c = 4 * 1 := by decide +kernel
  exact this

/-- There is another mode, with factor one; no other factor exceeds four. -/
example : Mode twoX twoS 1 (fun c => if c = 0 then 1 else -2) := by
  have : ∀ c < 2, fop twoX twoS (fun c => if c = 0 then 1 else -2) c = 1 * (if c = 0 then 1 else -2) := by decide +kernel
  exact this

example (k : ℚ) (d : Nat → ℚ) (h : Mode twoX twoS k d) (h0 : k ≠ 0) (hd : ∃ c < 2, d c ≠ 0) : |k| ≤ 4 :=
  C133_dominant two_solver two_data two_mode (by norm_num) (fun _ _ => one_pos) h h0 hd

example (k : ℚ) (d : Nat → ℚ) (h : Mode twoX twoS k d) (h0 : 0 < k) (hd : ∀ c < 2, 0 < d c) : 4 = k :=
  C133_one two_solver two_data two_mode (by norm_num) (fun _ _ => one_pos) h h0 (fun c hc => hd c hc.1)
    ⟨0, (two_fissile 0).2 (by decide)⟩

example (d : Nat → ℚ) (h : Mode twoX twoS 4 d) : ∃ t, ∀ c < 2, d c = t * 1 :=
  C133_shape two_solver two_data two_mixing two_mode (by norm_num) (fun _ _ => one_pos) ⟨0, (two_fissile 0).2 (by decide)⟩ h

/-- The density `(1, 2)` is multiplied by five and by three. -/
example : (3 : ℚ) ≤ 4 ∧ (4 : ℚ) ≤ 5 := by
  have e : ∀ c < 2, 3 * (if c = 0 then 1 else 2) ≤ fop twoX twoS (fun c => if c = 0 then 1 else 2) c ∧
      fop twoX twoS (fun c => if c = 0 then 1 else 2) c ≤ 5 * (if c = 0 then 1 else 2) := by decide +kernel
  refine C133_quotients two_solver two_data (f := fun c => if c = 0 then 1 else 2) two_mode
    (by norm_num) (fun _ _ => one_pos) ⟨0, (two_fissile 0).2 (by decide)⟩ (fun c hc => ?_) (fun c hc hF => ?_)
    (fun c hc => ?_) fun c hc => ?_
  · split_ifs <;> norm_num
  · exact absurd ((two_fissile c).2 hc) hF
  · exact (e c hc.1).1
  · exact (e c hc.1).2

/-- The flux of a flat source stays below and above bounds that bracket the factor. -/
example : |(4 : ℚ)| ≤ 5 ∧ (3 : ℚ) ≤ 4 := by
  have e1 : ∀ g < 1, ∀ c : Nat, c < 2 → twoS (fun g c => 1 / 5 * ((∑ gp ∈ range 1, makes twoX gp c * (2 - (c : ℚ))) * emits twoX g c)) g c ≤
      2 - (c : ℚ) := by decide +kernel
  have e2 : ∀ g < 1, ∀ c : Nat, c < 2 → (2 - (c : ℚ)) ≤
      twoS (fun g c => 1 / 3 * ((∑ gp ∈ range 1, makes twoX gp c * (2 - (c : ℚ))) * emits twoX g c)) g c := by decide +kernel
  have hv : ∀ g < 1, ∀ c : Nat, c < 2 → (0 : ℚ) < 2 - (c : ℚ) := by decide +kernel
  exact ⟨C133_above two_solver two_data two_mode (by norm_num) ⟨0, by decide, one_ne_zero⟩ (by norm_num)
      (fun _ c => 2 - (c : ℚ)) hv e1,
    C133_under two_solver two_data two_mode (by norm_num) (fun _ _ => one_pos) ⟨0, (two_fissile 0).2 (by decide)⟩
      (by norm_num) (fun _ c => 2 - (c : ℚ)) hv e2⟩

/-- A third more fission in the first cell: the factor is no smaller. -/
example : Below twoX twoS { twoX with mat := { twoMat with nuSigF := fun _ m => if m = 0 then 4 / 3 else 2 } } twoS := by
  intro d h c hc
  have h0 := h 0 (by decide)
  have h1 := h 1 (by decide)
  have hc : c < 2 := hc
  rw [fop_eq _ _ _ (show c < 2 from hc), fop_eq _ _ _ (show c < 2 from hc)]
  change ∑ g ∈ range 1, _ ≤ ∑ g ∈ range 1, _
  rw [sum_range_one, sum_range_one]
  interval_cases c <;> simp [twoS, twoX, twoMat, emits, makes] <;> linarith

/-- Power iteration on it: the first estimates, and the bounds that the densities give. -/
example : ((twoPI 9 0).after (fun _ _ => 0) 1).keff = 11 / 3 ∧ ((twoPI 9 0).after (fun _ _ => 0) 2).keff = 43 / 11 ∧
    ((twoPI 9 0).after (fun _ _ => 0) 3).keff = 171 / 43 := by decide +kernel

example (n : Nat) : 0 < ((twoPI 9 0).after (fun _ _ => 0) (n + 1)).dens 1 :=
  (C134_densities (two_sound 9 0) _ n).1 1 ((two_fissile 1).2 (by decide))

example : ∃ rho, 0 ≤ rho ∧ rho < 1 ∧ ∃ C, 0 ≤ C ∧ ∀ n, |((twoPI 9 0).after (fun _ _ => 0) (n + 2)).keff - 4| ≤ rho ^ n * C := by
  obtain ⟨rho, r0, r1, C, C0, h⟩ := C134_converges (two_sound 9 0) (fun _ _ => 0) two_mode (by norm_num) (fun _ _ => one_pos)
  exact ⟨rho, r0, r1, C, C0, fun n => (h n).1⟩

example : ∃ C > 0, ∃ t0 > 0, ∀ tol, 0 < tol → tol ≤ t0 → ∃ n0, ∀ N, n0 ≤ N →
    ∃ r, (twoPI N tol).run (fun _ _ => 0) = some r ∧ r.warned = false ∧ |r.keff - 4| ≤ C * tol :=
  C134_returned (two_sound 9 0) (fun _ _ => 0) two_mode (by norm_num) (fun _ _ => one_pos)

/-- The bounds from the first two densities hold for all later estimates. -/
example : (18 / 5 : ℚ) ≤ ((twoPI 9 0).after (fun _ _ => 0) 2).keff ∧ ((twoPI 9 0).after (fun _ _ => 0) 2).keff ≤ 13 / 3 := by
  have e : ∀ c < 2, 18 / 5 * ((twoPI 9 0).after (fun _ _ => 0) 1).dens c ≤
      ((twoPI 9 0).after (fun _ _ => 0) 1).keff * ((twoPI 9 0).after (fun _ _ => 0) 2).dens c ∧
      ((twoPI 9 0).after (fun _ _ => 0) 1).keff * ((twoPI 9 0).after (fun _ _ => 0) 2).dens c ≤
      13 / 3 * ((twoPI 9 0).after (fun _ _ => 0) 1).dens c := by decide +kernel
  exact (C134_nested (two_sound 9 0) (fun _ _ => 0) 0 (fun c hc => (e c hc.1).1) fun c hc => (e c hc.1).2).2

/-- The factor is positive and attained over the reals. -/
example : ∃ k > 0, ∃ d : Nat → ℝ, Mode ⟨{ (Mat.new 1 1 : Mat ℝ) with nuSigF := fun _ _ => 1, chi := fun _ _ => 1 }, 1,
    fun _ => 0, false⟩ (fun q g c => 2 * q g c) k d := by
  obtain ⟨k, h0, d, h1, _⟩ := C133_exists (x := ⟨{ (Mat.new 1 1 : Mat ℝ) with nuSigF := fun _ _ => 1, chi := fun _ _ => 1 }, 1,
    fun _ => 0, false⟩) (S := fun q g c => 2 * q g c) ⟨fun s t q q' g _ c _ => by ring, fun q h g hg c hc =>
      mul_nonneg (by norm_num) (h g hg c hc)⟩ ⟨fun _ _ _ _ => zero_le_one, fun _ _ _ _ => zero_le_one⟩ (by
      rintro c ⟨hc, _⟩ c' ⟨hc', _⟩
      have e1 : c = 0 := Nat.lt_one_iff.1 hc
      have e2 : c' = 0 := Nat.lt_one_iff.1 hc'
      rw [e1, e2, fop_eq _ _ _ (Nat.one_pos)]
      change 0 < ∑ g ∈ range 1, _
      rw [sum_range_one]
      simp [emits, makes]) ⟨0, Nat.one_pos, 0, Nat.one_pos, one_ne_zero⟩
  exact ⟨k, h0, d, h1⟩

end Detran.EigenPI
