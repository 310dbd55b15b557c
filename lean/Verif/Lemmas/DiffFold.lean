import Verif.Props.KeffDiff

/-!
# Diffusion problems folded along axes (C146)
-/

namespace Detran.Diffusion
open Finset

variable {K : Type} [Field K]

/-! ## Specification: how the cells of one axis lie over those of another -/

/-- Cell `i` of `n` is the last one towards the low (`d = 0`) or the high end. -/
def AtEnd (n i d : Nat) : Prop := i = if d = 0 then 0 else n - 1

/-- The next cell that way. -/
def step (i d : Nat) : Nat := if d = 0 then i - 1 else i + 1

/-- The end a face is taken to: the other one where the axis is reversed. -/
def turn (b : Bool) (d : Nat) : Nat := if b then 1 - d else d

/-- What lies beyond a face of cell `i` and what lies beyond the face of cell `f i` it is taken to: both lie on a side and the sides
    have the same albedo, or both are mirrors; both lie between cells and those beyond correspond; or a mirror is
    in place of a cell that lies over the same one. -/
def Meets (n n' : Nat) (h h' al al' : Nat → K) (f : Nat → Nat) (i d d' : Nat) : Prop :=
  (AtEnd n i d ∧ AtEnd n' (f i) d' ∧ (al d = al' d' ∧ h i = h' (f i) ∨ al d = 1 ∧ al' d' = 1)) ∨
  (¬ AtEnd n i d ∧ ¬ AtEnd n' (f i) d' ∧ f (step i d) = step (f i) d' ∧ h i = h' (f i) ∧ h (step i d) = h' (step (f i) d')) ∨
  (¬ AtEnd n i d ∧ AtEnd n' (f i) d' ∧ al' d' = 1 ∧ f (step i d) = f i)

/-- An axis of `n` cells with widths `h` and albedos `al` lies over one of `n'`. -/
structure Over (n n' : Nat) (h h' al al' : Nat → K) (f : Nat → Nat) (fl : Nat → Bool) : Prop where
  lt : ∀ i < n, f i < n'
  face : ∀ i < n, ∀ d < 2, Meets n n' h h' al al' f i d (turn (fl i) d)

/-- The cell that a cell lies over, axis `b` there being axis `ρ b` here. -/
def onto (M M' : Grid K) (ρ : Nat → Nat) (f : Nat → Nat → Nat) (c : Nat) : Nat :=
  M'.index (f (ρ 0) (M.coord c (ρ 0))) (f (ρ 1) (M.coord c (ρ 1))) (f (ρ 2) (M.coord c (ρ 2)))

/-- The first problem lies over the second: same materials, axis `a` over axis `σ a`. -/
structure Folds (L L' : Loss K) (σ ρ : Nat → Nat) (f : Nat → Nat → Nat) (fl : Nat → Nat → Bool) : Prop where
  fwd : ∀ a < 3, σ a < 3 ∧ ρ (σ a) = a
  back : ∀ b < 3, ρ b < 3 ∧ σ (ρ b) = b
  axis : ∀ a < 3, Over (L.M.count a) (L'.M.count (σ a)) (L.M.h a) (L'.M.h (σ a)) (fun d => L.al (2 * a + d))
    (fun d => L'.al (2 * σ a + d)) (f a) (fl a)
  mat : L'.mat = L.mat
  mm : ∀ c < L.M.size, L.mmap c = L'.mmap (onto L.M L'.M ρ f c)
  adjoint : L'.adjoint = L.adjoint
  cutoff : L'.cutoff = L.cutoff
  fission : L'.fission = L.fission
  sf : L'.sf = L.sf
  keff : L'.keff = L.keff

/-! ## Lemmas -/

theorem onBoundary_iff (M : Grid K) (c a : Nat) {d : Nat} (hd : d < 2) :
    M.onBoundary c (2 * a + d) = true ↔ AtEnd (M.count a) (M.coord c a) d := by
  unfold Grid.onBoundary AtEnd
  rw [show (2 * a + d) / 2 = a by omega, show (2 * a + d) % 2 = d by omega, decide_eq_true_iff]

theorem shifted_self (a i : Nat) {d : Nat} (hd : d < 2) : shifted (2 * a + d) a i = step i d := by
  unfold shifted step
  rw [if_pos (by omega), show (2 * a + d) % 2 = d by omega]

theorem shifted_off {a b : Nat} (i : Nat) {d : Nat} (hd : d < 2) (h : b ≠ a) : shifted (2 * a + d) b i = i := by
  unfold shifted
  rw [if_neg (by omega)]

theorem turn_lt (b : Bool) {d : Nat} (hd : d < 2) : turn b d < 2 := by
  unfold turn
  split <;> omega

theorem neighbour_coord (M : Grid K) {c a d : Nat} (hc : c < M.size) (ha : a < 3) (hd : d < 2)
    (h : ¬ AtEnd (M.count a) (M.coord c a) d) {b : Nat} (hb : b < 3) :
    M.coord (M.neighbour c (2 * a + d)) b = shifted (2 * a + d) b (M.coord c b) := by
  have key : ∀ b, shifted (2 * a + d) b (M.coord c b) < M.count b := fun b => by
    have hl := coord_lt M hc b
    by_cases e : b = a
    · subst e
      rw [shifted_self _ _ hd]
      unfold step AtEnd at *
      split
      · omega
      · rename_i hd0
        rw [if_neg hd0] at h
        omega
    · rw [shifted_off _ hd e]
      exact hl
  obtain ⟨h0, h1, h2⟩ := coord_index M (k := shifted (2 * a + d) 2 (M.coord c 2)) (key 0) (key 1)
  interval_cases b
  · exact h0
  · exact h1
  · exact h2

section folded
variable {L L' : Loss K} {σ ρ : Nat → Nat} {f : Nat → Nat → Nat} {fl : Nat → Nat → Bool} (H : Folds L L' σ ρ f fl)
include H

theorem onto_coord {c : Nat} (hc : c < L.M.size) {a : Nat} (ha : a < 3) :
    L'.M.coord (onto L.M L'.M ρ f c) (σ a) = f a (L.M.coord c a) := by
  have key : ∀ b < 3, f (ρ b) (L.M.coord c (ρ b)) < L'.M.count b := fun b hb => by
    obtain ⟨h1, h2⟩ := H.back b hb
    have := (H.axis (ρ b) h1).lt _ (coord_lt L.M hc (ρ b))
    rwa [h2] at this
  obtain ⟨h0, h1, h2⟩ := coord_index L'.M (k := f (ρ 2) (L.M.coord c (ρ 2))) (key 0 (by omega)) (key 1 (by omega))
  obtain ⟨hs, hr⟩ := H.fwd a ha
  have : ∀ b < 3, L'.M.coord (onto L.M L'.M ρ f c) b = f (ρ b) (L.M.coord c (ρ b)) := fun b hb => by
    interval_cases b
    · exact h0
    · exact h1
    · exact h2
  rw [this _ hs, hr]

theorem onto_lt {c : Nat} (hc : c < L.M.size) : onto L.M L'.M ρ f c < L'.M.size := by
  have key : ∀ b < 3, f (ρ b) (L.M.coord c (ρ b)) < L'.M.count b := fun b hb => by
    obtain ⟨h1, h2⟩ := H.back b hb
    have := (H.axis (ρ b) h1).lt _ (coord_lt L.M hc (ρ b))
    rwa [h2] at this
  exact index_lt L'.M (key 0 (by omega)) (key 1 (by omega)) (key 2 (by omega))

theorem onto_neighbour {c a d : Nat} (hc : c < L.M.size) (ha : a < 3) (hd : d < 2)
    (h : ¬ AtEnd (L.M.count a) (L.M.coord c a) d) {d' : Nat} (hd' : d' < 2)
    (hf : f a (step (L.M.coord c a) d) = step (f a (L.M.coord c a)) d') :
    onto L.M L'.M ρ f (L.M.neighbour c (2 * a + d)) = L'.M.neighbour (onto L.M L'.M ρ f c) (2 * σ a + d') := by
  have key : ∀ b < 3, f (ρ b) (L.M.coord (L.M.neighbour c (2 * a + d)) (ρ b)) =
      shifted (2 * σ a + d') b (L'.M.coord (onto L.M L'.M ρ f c) b) := fun b hb => by
    obtain ⟨h1, h2⟩ := H.back b hb
    have e : L'.M.coord (onto L.M L'.M ρ f c) b = f (ρ b) (L.M.coord c (ρ b)) := by
      have := onto_coord H hc h1
      rwa [h2] at this
    rw [neighbour_coord L.M hc ha hd h h1, e]
    by_cases hab : ρ b = a
    · have hb' : b = σ a := by rw [← hab, h2]
      rw [hab, hb', shifted_self _ _ hd, shifted_self _ _ hd', hf]
    · rw [shifted_off _ hd hab, shifted_off _ hd' fun e => hab (by rw [e, (H.fwd a ha).2])]
  show L'.M.index _ _ _ = L'.M.index _ _ _
  rw [key 0 (by omega), key 1 (by omega), key 2 (by omega)]

theorem onto_same {c a d : Nat} (hc : c < L.M.size) (ha : a < 3) (hd : d < 2)
    (h : ¬ AtEnd (L.M.count a) (L.M.coord c a) d) (hf : f a (step (L.M.coord c a) d) = f a (L.M.coord c a)) :
    onto L.M L'.M ρ f (L.M.neighbour c (2 * a + d)) = onto L.M L'.M ρ f c := by
  have key : ∀ b < 3, f (ρ b) (L.M.coord (L.M.neighbour c (2 * a + d)) (ρ b)) = f (ρ b) (L.M.coord c (ρ b)) := fun b hb => by
    obtain ⟨h1, _⟩ := H.back b hb
    rw [neighbour_coord L.M hc ha hd h h1]
    by_cases hab : ρ b = a
    · rw [hab, shifted_self _ _ hd, hf]
    · rw [shifted_off _ hd hab]
  show L'.M.index _ _ _ = L'.M.index _ _ _
  rw [key 0 (by omega), key 1 (by omega), key 2 (by omega)]

theorem dc_over {c : Nat} (hc : c < L.M.size) (g : Nat) : L.dc g c = L'.dc g (onto L.M L'.M ρ f c) := by
  unfold Loss.dc
  rw [H.mat, H.mm c hc]

end folded

theorem dBoundary_mirror (dc h : K) : dBoundary dc 1 h = 0 := by simp [dBoundary]

theorem leak_at (a : Nat) {d : Nat} (hd : d < 2) : (2 * a + d) / 2 = a := by omega

/-- A term over the faces has the same sum if it agrees face by face. -/
theorem faces_sum {σ ρ : Nat → Nat} (fwd : ∀ a < 3, σ a < 3 ∧ ρ (σ a) = a) (back : ∀ b < 3, ρ b < 3 ∧ σ (ρ b) = b)
    (t : Nat → Bool) {F F' : Nat → K} (h : ∀ a < 3, ∀ d < 2, F (2 * a + d) = F' (2 * σ a + turn (t a) d)) :
    ∑ l ∈ range 6, F l = ∑ l ∈ range 6, F' l := by
  have two : ∀ F : Nat → K, ∑ l ∈ range 6, F l = ∑ a ∈ range 3, (F (2 * a) + F (2 * a + 1)) := fun F => by
    simp only [sum_range_succ, sum_range_zero]
    ring
  rw [two, two]
  refine sum_bij (fun a _ => σ a) (fun a ha => mem_range.2 (fwd a (mem_range.1 ha)).1) (fun a ha b hb e => ?_)
    (fun b hb => ⟨ρ b, mem_range.2 (back b (mem_range.1 hb)).1, (back b (mem_range.1 hb)).2⟩) fun a ha => ?_
  · have h1 := (fwd a (mem_range.1 ha)).2
    have h2 := (fwd b (mem_range.1 hb)).2
    rw [← h1, ← h2, e]
  · have h0 := h a (mem_range.1 ha) 0 (by omega)
    have h1 := h a (mem_range.1 ha) 1 (by omega)
    rw [Nat.add_zero] at h0
    rw [h0, h1]
    unfold turn
    cases t a
    · simp
    · simp [add_comm]

theorem face_over {L L' : Loss K} {σ ρ : Nat → Nat} {f : Nat → Nat → Nat} {fl : Nat → Nat → Bool} (H : Folds L L' σ ρ f fl) (g : Nat)
    {y y' : Nat → K} (hy : ∀ c < L.M.size, y c = y' (onto L.M L'.M ρ f c)) {c a d : Nat} (hc : c < L.M.size) (ha : a < 3) (hd : d < 2) :
    L.faceTerm g y c (2 * a + d) / L.M.width c ((2 * a + d) / 2) =
      L'.faceTerm g y' (onto L.M L'.M ρ f c) (2 * σ a + turn (fl a (L.M.coord c a)) d) /
        L'.M.width (onto L.M L'.M ρ f c) ((2 * σ a + turn (fl a (L.M.coord c a)) d) / 2) := by
  set d' := turn (fl a (L.M.coord c a)) d with hd'
  have hd2 : d' < 2 := turn_lt _ hd
  have hco := onto_coord H hc ha
  have hcs := coord_lt L.M hc a
  have b := onBoundary_iff L.M c a hd
  have b' := onBoundary_iff L'.M (onto L.M L'.M ρ f c) (σ a) hd2
  rw [hco] at b'
  unfold Loss.faceTerm Loss.dtilde
  rw [leak_at a hd, leak_at (σ a) hd2]
  have w : L.M.width c a = L.M.h a (L.M.coord c a) := rfl
  have w' : L'.M.width (onto L.M L'.M ρ f c) (σ a) = L'.M.h (σ a) (f a (L.M.coord c a)) := by
    show L'.M.h (σ a) (L'.M.coord _ (σ a)) = _
    rw [hco]
  rcases (H.axis a ha).face _ hcs d hd with ⟨e, e', h⟩ | ⟨e, e', hf, h1, h2⟩ | ⟨e, e', hm, hf⟩
  · rw [if_pos (b.2 e), if_pos (b.2 e), if_pos (b'.2 e'), if_pos (b'.2 e'), ← hy c hc, ← dc_over H hc, w, w']
    rcases h with ⟨h1, h2⟩ | ⟨h1, h2⟩
    · change L.al (2 * a + d) = L'.al (2 * σ a + d') at h1
      rw [h1, h2]
    · change L.al (2 * a + d) = 1 at h1
      change L'.al (2 * σ a + d') = 1 at h2
      rw [h1, h2, dBoundary_mirror, dBoundary_mirror]
      simp
  · have hn := (neighbour_spec L.M hc (by omega) (Bool.eq_false_iff.2 fun h => e (b.1 h))).1
    have hon := onto_neighbour H hc ha hd e hd2 hf
    rw [if_neg fun h => e (b.1 h), if_neg fun h => e (b.1 h), if_neg fun h => e' (b'.1 h), if_neg fun h => e' (b'.1 h),
      ← hon, ← hy c hc, ← hy _ hn, ← dc_over H hc, ← dc_over H hn]
    have v : L.M.width (L.M.neighbour c (2 * a + d)) a = L.M.h a (step (L.M.coord c a) d) := by
      show L.M.h a (L.M.coord _ a) = _
      rw [neighbour_coord L.M hc ha hd e ha, shifted_self _ _ hd]
    have v' : L'.M.width (onto L.M L'.M ρ f (L.M.neighbour c (2 * a + d))) (σ a) = L'.M.h (σ a) (step (f a (L.M.coord c a)) d') := by
      show L'.M.h (σ a) (L'.M.coord _ (σ a)) = _
      rw [onto_coord H hn ha, neighbour_coord L.M hc ha hd e ha, shifted_self _ _ hd, hf]
    rw [v, v', w, w', h1, h2]
  · have hn := (neighbour_spec L.M hc (by omega) (Bool.eq_false_iff.2 fun h => e (b.1 h))).1
    rw [if_neg fun h => e (b.1 h), if_neg fun h => e (b.1 h), if_pos (b'.2 e'), if_pos (b'.2 e'),
      hy c hc, hy _ hn, onto_same H hc ha hd e hf, sub_self, mul_zero, zero_div]
    change L'.al (2 * σ a + d') = 1 at hm
    rw [hm, dBoundary_mirror, zero_mul, zero_div]

/-- The left hand sides agree. -/
theorem lhs_over [LinearOrder K] [IsStrictOrderedRing K] {L L' : Loss K} {σ ρ : Nat → Nat} {f : Nat → Nat → Nat} {fl : Nat → Nat → Bool} (H : Folds L L' σ ρ f fl)
    {x x' : Nat → K} {g : Nat} (hg : g ∈ L.active)
    (hx : ∀ g ∈ L.active, ∀ c < L.M.size, x (L.pos g c) = x' (L'.pos g (onto L.M L'.M ρ f c))) {c : Nat} (hc : c < L.M.size) :
    L.lhs x g c = L'.lhs x' g (onto L.M L'.M ρ f c) := by
  have ha : L'.active = L.active := by
    unfold Loss.active
    rw [H.adjoint, H.cutoff, H.mat]
  have hi : ∀ gp, L.inXs g gp c = L'.inXs g gp (onto L.M L'.M ρ f c) := fun gp => by
    unfold Loss.inXs Loss.scatXs Loss.fisXs
    rw [H.sf, H.adjoint, H.fission, H.keff, H.mat, H.mm c hc]
  unfold Loss.lhs
  congr 1
  · exact faces_sum H.fwd H.back (fun a => fl a (L.M.coord c a)) fun a ha d hd => face_over H g (hx g hg) hc ha hd
  · rw [local_eq, local_eq, ha, H.mat, ← H.mm c hc, hx g hg c hc]
    congr 1
    exact sum_congr rfl fun gp hgp => by rw [hi, hx gp hgp c hc]

end Detran.Diffusion
