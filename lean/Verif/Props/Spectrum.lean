import Mathlib.Algebra.BigOperators.Intervals
import Mathlib.Algebra.BigOperators.Group.Finset.Basic
import Mathlib.Algebra.BigOperators.Ring.Finset
import Mathlib.Tactic.Ring
import Mathlib.Tactic.Linarith
import Mathlib.Tactic.FieldSimp
import Verif.Model.Spectrum

/-!
# C118: spectra for condensation
-/

namespace Detran.Spectrum

open Detran.Material Finset

variable {K : Type} [Field K] [LinearOrder K]

/-! ## Specification -/

/-- What reaches group `g` from a unit flux in group `gp`: scattering and, if included, production by fission. -/
def into (x : Mat K) (fission : Bool) (k : K) (m g gp : Nat) : K :=
  x.sigS g gp m + if fission then x.chi g m * x.nuSigF gp m / k else 0

/-- The same with fission cross sections in place of production. -/
def intoF (x : Mat K) (fission : Bool) (k : K) (m g gp : Nat) : K :=
  x.sigS g gp m + if fission then x.chi g m * x.sigF gp m / k else 0

/-- Flux of an infinite medium of material `m` with source `b`. -/
def Medium (x : Mat K) (ker : Nat → Nat → K) (m : Nat) (b v : Nat → K) : Prop :=
  ∀ g, g < x.G → x.sigT g m * v g = ∑ gp ∈ range x.G, ker g gp * v gp + b g

/-- One sweep of Gauss-Seidel over the groups of an infinite medium without source takes `v` to `w`. -/
def Sweep (x : Mat K) (ker : Nat → Nat → K) (m : Nat) (v w : Nat → K) : Prop :=
  ∀ g, g < x.G → x.sigT g m * w g =
    ∑ gp ∈ (range x.G).filter (· ≤ g), ker g gp * w gp + ∑ gp ∈ (range x.G).filter (g < ·), ker g gp * v gp

/-- Product of a matrix and a vector. -/
def apply (G : Nat) (A : Nat → Nat → K) (v : Nat → K) (g : Nat) : K := ∑ gp ∈ range G, A g gp * v gp

/-- The dense solver returns an eigenvector of the pair. -/
def Eig (G : Nat) (eig : (Nat → Nat → K) → (Nat → Nat → K) → Nat → K) (U L : Nat → Nat → K) (r : K) : Prop :=
  ∀ g, g < G → apply G U (eig U L) g = r * apply G L (eig U L) g

/-! ## Gauss-Seidel spectrum -/

theorem gs_zero (eig : (Nat → Nat → K) → (Nat → Nat → K) → Nat → K) (x : Mat K) (fission : Bool) (g : Nat) (hg : g < x.G) :
    gs eig x fission g 0 = eig (gsU x fission 0) (gsL x fission 0) g := by
  simp [gs, hg]

/-- **C118 (Gauss-Seidel, first material), partial.**  If the dense solver returns an eigenvector for the eigenvalue `r`, a
    sweep takes the spectrum of the first material to `r` times itself: it is the error shape that the iteration reduces by
    that factor.  Fission enters with the fission cross section and not the production; the other materials are
    `C118_gs_others`. -/
theorem C118_gs_partial (eig : (Nat → Nat → K) → (Nat → Nat → K) → Nat → K) (x : Mat K) (fission : Bool) (r : K)
    (h : Eig x.G eig (gsU x fission 0) (gsL x fission 0) r) :
    Sweep x (intoF x fission 1 0) 0 (fun g => gs eig x fission g 0) (fun g => r * gs eig x fission g 0) := by
  intro g hg
  have e := h g hg
  have hv : ∀ gp, gp ∈ range x.G → gs eig x fission gp 0 = eig (gsU x fission 0) (gsL x fission 0) gp :=
    fun gp hp => gs_zero eig x fission gp (mem_range.1 hp)
  generalize eig (gsU x fission 0) (gsL x fission 0) = v at e hv
  have eU : apply x.G (gsU x fission 0) v g = ∑ gp ∈ (range x.G).filter (g < ·), intoF x fission 1 0 g gp * v gp := by
    rw [apply, sum_filter]
    refine sum_congr rfl fun gp hp => ?_
    rw [gsU, intoF]
    by_cases hlt : g < gp
    · rw [if_pos ⟨hlt, mem_range.1 hp⟩, if_pos hlt, div_one]
    · rw [if_neg (fun h => hlt h.1), if_neg hlt, zero_mul]
  have eL : apply x.G (gsL x fission 0) v g =
      x.sigT g 0 * v g - ∑ gp ∈ (range x.G).filter (· ≤ g), intoF x fission 1 0 g gp * v gp := by
    rw [apply, sum_filter]
    have hone : x.sigT g 0 * v g = ∑ gp ∈ range x.G, if gp = g then x.sigT g 0 * v gp else 0 := by
      rw [sum_ite_eq' (range x.G) g, if_pos (mem_range.2 hg)]
    rw [hone, ← sum_sub_distrib]
    refine sum_congr rfl fun gp _ => ?_
    rw [gsL, intoF]
    by_cases hle : gp ≤ g
    · rw [if_pos hle, if_pos hle]
      by_cases he : gp = g
      · rw [if_pos he, if_pos he, div_one]; ring
      · rw [if_neg he, if_neg he, div_one]; ring
    · rw [if_neg hle, if_neg hle, if_neg (by omega)]; ring
  rw [eU, eL] at e
  show x.sigT g 0 * (r * gs eig x fission g 0) = _
  rw [hv g (mem_range.2 hg)]
  have s1 : ∑ gp ∈ (range x.G).filter (· ≤ g), intoF x fission 1 0 g gp * (r * gs eig x fission gp 0) =
      r * ∑ gp ∈ (range x.G).filter (· ≤ g), intoF x fission 1 0 g gp * v gp := by
    rw [mul_sum]
    refine sum_congr rfl fun gp hp => ?_
    rw [hv gp (mem_filter.1 hp).1]; ring
  have s2 : ∑ gp ∈ (range x.G).filter (g < ·), intoF x fission 1 0 g gp * gs eig x fission gp 0 =
      ∑ gp ∈ (range x.G).filter (g < ·), intoF x fission 1 0 g gp * v gp :=
    sum_congr rfl fun gp hp => by rw [hv gp (mem_filter.1 hp).1]
  rw [s1, s2, e]
  ring

/-- **C118 (Gauss-Seidel, other materials).**  Their spectra are zero. -/
theorem C118_gs_others (eig : (Nat → Nat → K) → (Nat → Nat → K) → Nat → K) (x : Mat K) (fission : Bool) (g m : Nat)
    (hm : m ≠ 0) : gs eig x fission g m = 0 := by
  simp [gs, hm]

theorem foldl_keep {A B : Type} (p : A → Prop) [DecidablePred p] (f : B → A → B) (l : List A) (b : B) (h : ∀ s a, p a → f s a = s) :
    l.foldl (fun s a => if p a then f s a else s) b = b := by
  induction l with
  | nil => rfl
  | cons a l ih =>
    rw [List.foldl_cons]
    split
    · rename_i hp; rw [h b a hp, ih]
    · exact ih

/-- **C118 (Gauss-Seidel, prolongation).**  So the preconditioner divides by zero in every cell of another material: the
    condensed spectrum it divides by is zero there, in every coarse group. -/
theorem C118_gs_divides (eig : (Nat → Nat → K) → (Nat → Nat → K) → Nat → K) (x : Mat K) (fission : Bool)
    (D : Restrict.Data K) (hD : D.spec = gs eig x fission) (cs : Nat → Nat → K)
    (hc : D.condense (fun _ _ => 0) = some cs) (i cg : Nat) (hi : D.key i ≠ 0) : cs cg (D.key i) = 0 := by
  rw [Restrict.Data.condense] at hc
  split at hc
  · rw [← Option.some_inj.1 hc]
    simp only
    rw [hD]
    exact foldl_keep (fun e : Nat × Nat => e.1 = cg)
      (fun (s : K) (e : Nat × Nat) => s + gs eig x fission (D.cutoff + e.2) (D.key i)) _ 0
      fun s a _ => by rw [C118_gs_others eig x fission _ _ hi, add_zero]
  · cases hc

/-! ## Fixed-source spectrum -/

/-- **C118 (fixed source, missing entry).**  Without the source entry there is an exception. -/
theorem C118_fs_missing (solve : (Nat → Nat → K) → (Nat → K) → (Nat → K) → Nat → K) (norm : (Nat → K) → K) (x : Mat K)
    (fission : Bool) (k : K) : fs solve norm x fission k none = none := rfl

theorem fs_fold (solve : (Nat → Nat → K) → (Nat → K) → (Nat → K) → Nat → K) (norm : (Nat → K) → K) (x : Mat K)
    (fission : Bool) (k : K) (b : Nat → K) (N : Nat) : ∀ m, m < N → ∃ guess,
      ∀ g, g < x.G → ((List.range N).foldl (fun (s : (Nat → K) × (Nat → Nat → K)) m =>
        let y := solve (fsA x fission k m) b s.1
        let z := fun g => y g * (1 / norm y)
        (z, fun g r => if r = m ∧ g < x.G then z g else s.2 g r)) (fun _ => 0, fun _ _ => 0)).2 g m =
        solve (fsA x fission k m) b guess g * (1 / norm (solve (fsA x fission k m) b guess)) := by
  induction N with
  | zero => intro m hm; omega
  | succ N ih =>
    intro m hm
    rw [List.range_succ, List.foldl_append]
    simp only [List.foldl_cons, List.foldl_nil]
    rcases Nat.lt_or_ge m N with h | h
    · obtain ⟨guess, hg⟩ := ih m h
      refine ⟨guess, fun g hgG => ?_⟩
      rw [if_neg (fun c => by omega)]
      exact hg g hgG
    · obtain rfl : m = N := by omega
      exact ⟨_, fun g hgG => by rw [if_pos ⟨rfl, hgG⟩]⟩

/-- **C118 (fixed source), partial.**  With an exact linear solver the spectrum of every material is the flux of the infinite
    medium with the source of the entry, scaled; fission, if included, enters with the fission cross section and not the
    production. -/
theorem C118_fs_partial (solve : (Nat → Nat → K) → (Nat → K) → (Nat → K) → Nat → K) (norm : (Nat → K) → K) (x : Mat K)
    (fission : Bool) (k : K) (b : Nat → K)
    (hs : ∀ m, m < x.M → ∀ guess g, g < x.G → apply x.G (fsA x fission k m) (solve (fsA x fission k m) b guess) g = b g) :
    ∃ xi, fs solve norm x fission k (some b) = some xi ∧
      ∀ m, m < x.M → ∃ y : Nat → K, Medium x (intoF x fission k m) m b y ∧ ∀ g, g < x.G → xi g m = y g * (1 / norm y) := by
  refine ⟨_, rfl, fun m hm => ?_⟩
  obtain ⟨guess, hg⟩ := fs_fold solve norm x fission k b x.M m hm
  refine ⟨_, fun g hgG => ?_, hg⟩
  have e := hs m hm guess g hgG
  generalize solve (fsA x fission k m) b guess = y at e
  rw [apply] at e
  rw [← e, ← sum_add_distrib]
  have : ∀ gp ∈ range x.G, intoF x fission k m g gp * y gp + fsA x fission k m g gp * y gp =
      if g = gp then x.sigT g m * y gp else 0 := by
    intro gp _
    rw [intoF, fsA]
    split <;> split <;> ring
  rw [sum_congr rfl this, sum_ite_eq, if_pos (mem_range.2 hgG)]

/-- **C118 (fixed source, unit yield).**  Where `nu` is one, or fission is left out, the spectrum is that of the medium. -/
theorem C118_fs_unit (solve : (Nat → Nat → K) → (Nat → K) → (Nat → K) → Nat → K) (norm : (Nat → K) → K) (x : Mat K)
    (fission : Bool) (k : K) (b : Nat → K) (hf : fission = true → ∀ g m, g < x.G → m < x.M → x.nuSigF g m = x.sigF g m)
    (hs : ∀ m, m < x.M → ∀ guess g, g < x.G → apply x.G (fsA x fission k m) (solve (fsA x fission k m) b guess) g = b g) :
    ∃ xi, fs solve norm x fission k (some b) = some xi ∧
      ∀ m, m < x.M → ∃ y : Nat → K, Medium x (into x fission k m) m b y ∧ ∀ g, g < x.G → xi g m = y g * (1 / norm y) := by
  obtain ⟨xi, h, hy⟩ := C118_fs_partial solve norm x fission k b hs
  refine ⟨xi, h, fun m hm => ?_⟩
  obtain ⟨y, h1, h2⟩ := hy m hm
  refine ⟨y, fun g hg => ?_, h2⟩
  rw [h1 g hg]
  congr 1
  refine sum_congr rfl fun gp hp => ?_
  rw [into, intoF]
  cases fission
  · rfl
  · rw [hf rfl gp m (mem_range.1 hp) hm]

/-- **C118.**  Full statement: every material's spectrum is that of its infinite medium with production by fission. -/
def C118Claim (K : Type) [Field K] [LinearOrder K] : Prop :=
  ∀ (solve : (Nat → Nat → K) → (Nat → K) → (Nat → K) → Nat → K) (norm : (Nat → K) → K) (x : Mat K) (fission : Bool) (k : K)
    (b : Nat → K), k ≠ 0 → (∀ v, (∃ g, g < x.G ∧ v g ≠ 0) → norm v ≠ 0) → (∃ g, g < x.G ∧ b g ≠ 0) →
    (∀ g m, x.nuSigF g m = x.nu g m * x.sigF g m) →
    (∀ m, m < x.M → ∀ guess g, g < x.G → apply x.G (fsA x fission k m) (solve (fsA x fission k m) b guess) g = b g) →
    ∃ xi, fs solve norm x fission k (some b) = some xi ∧ ∀ m, m < x.M → ∃ c : K, c ≠ 0 ∧
      Medium x (into x fission k m) m (fun g => c * b g) fun g => xi g m

/-- Two groups, fission in the second only, two neutrons each, born in the first. -/
def exMat : Mat ℚ :=
  { Mat.new 1 2 with
    sigT := fun _ _ => 1
    sigS := fun g gp _ => if g = 1 ∧ gp = 0 then 1 / 2 else 0
    chi := fun g _ => if g = 0 then 1 else 0
    nu := fun _ _ => 2
    sigF := fun g _ => if g = 1 then 1 / 2 else 0
    nuSigF := fun g _ => if g = 1 then 1 else 0 }

/-- **C118.**  It fails: with a source in the second group the fluxes found are in the ratio one to two; with production in
    place of fission they are equal. -/
theorem C118_claim_fails : ¬ C118Claim ℚ := by
  intro h
  obtain ⟨xi, hx, hm⟩ := h (fun _ _ _ g => if g = 0 then 4 / 3 else 8 / 3) (fun v => |v 0| + |v 1|) exMat true 1
    (fun g => if g = 0 then 0 else 2) (by norm_num)
    (by
      rintro v ⟨g, hg, hv⟩ e
      have h0 := abs_nonneg (v 0)
      have h1 := abs_nonneg (v 1)
      have hg' : g < 2 := hg
      have : g = 0 ∨ g = 1 := by omega
      rcases this with rfl | rfl
      · exact hv (abs_eq_zero.1 (by linarith))
      · exact hv (abs_eq_zero.1 (by linarith)))
    ⟨1, by decide, by norm_num⟩
    (by intro g m; simp only [exMat]; split <;> norm_num)
    (by
      intro m hm guess g hg
      obtain rfl : m = 0 := by have : m < 1 := hm; omega
      have hg' : g < 2 := hg
      have : g = 0 ∨ g = 1 := by omega
      rcases this with rfl | rfl <;> simp [apply, fsA, exMat, Mat.new, sum_range_succ] <;> norm_num)
  obtain ⟨c, hc, hM⟩ := hm 0 (by decide)
  have h0 := hM 0 (by decide)
  rw [fs] at hx
  cases hx
  simp [exMat, Mat.new, into, sum_range_succ, fs] at h0
  norm_num at h0

/-! ## Pin cells -/

/-- **C118 (pin cells).**  The spectrum of pin `p` is its integrated flux, scaled. -/
theorem C118_pincell (flux : Mat K → Nat → Nat → Nat → K) (norm : (Nat → K) → K) (np : Nat) (cells : Nat → Nat)
    (vol : Nat → Nat → K) (x : Mat K) (k : K) (p g : Nat) (hp : p < np) (hg : g < x.G) :
    pinCell flux norm np cells vol x k g p =
      (∑ i ∈ range (cells p), flux (pinMaterial x k) p g i * vol p i) *
        (1 / norm fun g => ∑ i ∈ range (cells p), flux (pinMaterial x k) p g i * vol p i) := by
  have hsum : ∀ (f : Nat → K) n, (List.range n).foldl (fun s i => s + f i) 0 = ∑ i ∈ range n, f i := by
    intro f n
    induction n with
    | zero => rfl
    | succ n ih => rw [List.range_succ, List.foldl_append, List.foldl_cons, List.foldl_nil, ih, sum_range_succ]
  unfold pinCell
  simp only [hsum]
  induction np with
  | zero => omega
  | succ N ih =>
    rw [List.range_succ, List.foldl_append, List.foldl_cons, List.foldl_nil]
    rcases Nat.lt_or_ge p N with h | h
    · rw [if_neg (fun c => by omega)]
      exact ih h
    · obtain rfl : p = N := by omega
      rw [if_pos ⟨rfl, hg⟩]

/-- **C118 (pin cells, eigenvalue).**  The eigenvalue given changes nothing for a calculation that reads production, spectrum,
    total and scattering cross sections: the production of the copy is not brought up to date. -/
theorem C118_pincell_keff (flux : Mat K → Nat → Nat → Nat → K) (norm : (Nat → K) → K) (np : Nat) (cells : Nat → Nat)
    (vol : Nat → Nat → K) (x : Mat K) (k k' : K)
    (hf : ∀ y z : Mat K, y.sigT = z.sigT → y.sigS = z.sigS → y.chi = z.chi → y.nuSigF = z.nuSigF → flux y = flux z) :
    pinCell flux norm np cells vol x k = pinCell flux norm np cells vol x k' := by
  unfold pinCell
  rw [hf (pinMaterial x k) (pinMaterial x k') rfl rfl rfl rfl]

/-- **C118 (pin cells, update).**  Had the copy been finalized, its production would be `nu` times too large. -/
theorem C118_pincell_finalized (x : Mat K) (k : K) (g m : Nat) (hg : g < x.G) (hm : m < x.M) :
    (pinMaterial x k).finalize.nuSigF g m = x.nu g m * (x.nuSigF g m / k) := by
  simp [Mat.finalize, pinMaterial, hg, hm]

/-! ## Examples -/

/-- Two groups that scatter half into each other: the Gauss-Seidel spectrum is two to one, reduced by a factor four. -/
def exUp : Mat ℚ :=
  { Mat.new 2 2 with
    sigT := fun _ _ => 1
    sigS := fun g gp _ => if g ≠ gp then 1 / 2 else 0 }

example : Eig 2 (fun _ _ g => if g = 0 then 2 else 1) (gsU exUp false 0) (gsL exUp false 0) (1 / 4) := by
  intro g hg
  have : g = 0 ∨ g = 1 := by omega
  rcases this with rfl | rfl <;> simp [apply, gsU, gsL, exUp, Mat.new, sum_range_succ] <;> norm_num

example : (gs (fun _ _ g => if g = 0 then (2 : ℚ) else 1) exUp false 0 0, gs (fun _ _ g => if g = 0 then (2 : ℚ) else 1) exUp false 1 1) =
    (2, 0) := by decide +kernel

end Detran.Spectrum
