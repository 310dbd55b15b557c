import Verif.Lemmas.DiffFold

/-!
# Symmetric and uniform diffusion problems (C146)
-/

namespace Detran.Diffusion
open Detran.Matrix Finset
open Detran.EigenPI (Data Fissile emits makes)

variable {K : Type} [Field K]

/-! ## Axes over axes -/

/-- The axis itself. -/
theorem C146_same {n : Nat} {h h' al al' : Nat → K} (hh : ∀ i < n, h i = h' i) (ha : ∀ d < 2, al d = al' d) :
    Over n n h h' al al' (fun i => i) fun _ => false where
  lt := fun _ hi => hi
  face := fun i hi d hd => by
    by_cases e : AtEnd n i d
    · exact Or.inl ⟨e, e, Or.inl ⟨ha d hd, hh i hi⟩⟩
    · refine Or.inr (Or.inl ⟨e, e, rfl, hh i hi, hh _ ?_⟩)
      unfold AtEnd step at *
      split <;> simp_all <;> omega

/-- Seen in a mirror. -/
theorem C146_mirror {n : Nat} {h h' al al' : Nat → K} (hh : ∀ i < n, h i = h' (n - 1 - i)) (h0 : al 0 = al' 1) (h1 : al 1 = al' 0) :
    Over n n h h' al al' (fun i => n - 1 - i) fun _ => true where
  lt := fun _ hi => by omega
  face := fun i hi d hd => by
    interval_cases d
    · by_cases e : i = 0
      · exact Or.inl ⟨by simp [AtEnd, e], by simp [AtEnd, turn, e], Or.inl ⟨by simpa [turn] using h0, hh i hi⟩⟩
      · refine Or.inr (Or.inl ⟨by simp [AtEnd, e], by simp [AtEnd, turn]; omega, by simp [step, turn]; omega, hh i hi, ?_⟩)
        simp only [step, turn, if_true, Nat.sub_zero, one_ne_zero, if_false]
        rw [hh _ (by omega)]
        congr 1
        omega
    · by_cases e : i = n - 1
      · exact Or.inl ⟨by simp [AtEnd, e], by simp [AtEnd, turn, e], Or.inl ⟨by simpa [turn] using h1, hh i hi⟩⟩
      · refine Or.inr (Or.inl ⟨by simp [AtEnd, e], by simp [AtEnd, turn]; omega, by simp [step, turn]; omega, hh i hi, ?_⟩)
        simp only [step, turn, if_true, Nat.sub_self, one_ne_zero, if_false]
        rw [hh _ (by omega)]
        congr 1

/-- The whole of a symmetric axis over its lower half, which has a mirror in the middle. -/
theorem C146_half {m : Nat} {h h' al al' : Nat → K} (hh : ∀ i < 2 * m, h i = h' (if i < m then i else 2 * m - 1 - i))
    (h0 : al 0 = al' 0) (h1 : al 1 = al' 0) (hm : al' 1 = 1) :
    Over (2 * m) m h h' al al' (fun i => if i < m then i else 2 * m - 1 - i) fun i => decide (m ≤ i) where
  lt := fun i hi => by split <;> omega
  face := fun i hi d hd => by
    by_cases hl : i < m
    · have t : decide (m ≤ i) = false := by simp; omega
      simp only [Meets, AtEnd, step, turn, t, if_pos hl, Bool.false_eq_true, if_false]
      have hi' := hh i hi
      rw [if_pos hl] at hi'
      interval_cases d
      · by_cases e : i = 0
        · exact Or.inl ⟨by simp [e], by simp [e], Or.inl ⟨h0, hi'⟩⟩
        · have := hh (i - 1) (by omega)
          rw [if_pos (by omega)] at this
          exact Or.inr (Or.inl ⟨by simp [e], by simp [e], by simp; omega, hi', by simpa using this⟩)
      · by_cases e : i = m - 1
        · exact Or.inr (Or.inr ⟨by simp; omega, by simp [e], hm, by simp; split <;> omega⟩)
        · have := hh (i + 1) (by omega)
          rw [if_pos (by omega)] at this
          exact Or.inr (Or.inl ⟨by simp; omega, by simp [e], by simp; omega, hi', by simpa using this⟩)
    · have t : decide (m ≤ i) = true := by simp; omega
      simp only [Meets, AtEnd, step, turn, t, if_neg hl, if_true]
      have hi' := hh i hi
      rw [if_neg hl] at hi'
      interval_cases d
      · by_cases e : i = m
        · exact Or.inr (Or.inr ⟨by simp; omega, by simp; omega, hm, by simp; split <;> omega⟩)
        · have := hh (i - 1) (by omega)
          rw [if_neg (by omega)] at this
          refine Or.inr (Or.inl ⟨by simp; omega, by simp; omega, by simp; split <;> omega, hi', ?_⟩)
          simp only [if_true, Nat.sub_zero, one_ne_zero, if_false]
          rw [this]
          congr 1
          omega
      · by_cases e : i = 2 * m - 1
        · exact Or.inl ⟨by simp [e], by simp; omega, Or.inl ⟨by simpa using h1, hi'⟩⟩
        · have := hh (i + 1) (by omega)
          rw [if_neg (by omega)] at this
          refine Or.inr (Or.inl ⟨by simp; omega, by simp; omega, by simp; split <;> omega, hi', ?_⟩)
          simp only [Nat.sub_self, one_ne_zero, if_false, if_true]
          rw [this]
          congr 1

/-- Along which nothing changes, between mirrors, over a single cell of any width. -/
theorem C146_flat {n : Nat} {h h' al al' : Nat → K} (h1 : ∀ d < 2, al d = 1) (h2 : ∀ d < 2, al' d = 1) :
    Over n 1 h h' al al' (fun _ => 0) fun _ => false where
  lt := fun _ _ => Nat.one_pos
  face := fun i hi d hd => by
    have e' : AtEnd 1 0 d := by simp [AtEnd]
    by_cases e : AtEnd n i d
    · exact Or.inl ⟨e, e', Or.inr ⟨h1 d hd, h2 d hd⟩⟩
    · exact Or.inr (Or.inr ⟨e, e', h2 d hd, rfl⟩)

/-- A row of cells laid down again and again, every other time reversed, between mirrors. -/
theorem C146_lattice {r m : Nat} (hm : 0 < m) {h h' al al' : Nat → K}
    (hh : ∀ b < r, ∀ q < m, h (m * b + q) = h' (if b % 2 = 0 then q else m - 1 - q)) (h1 : ∀ d < 2, al d = 1) (h2 : ∀ d < 2, al' d = 1) :
    Over (m * r) m h h' al al' (fun i => if i / m % 2 = 0 then i % m else m - 1 - i % m) fun i => decide (i / m % 2 = 1) where
  lt := fun i _ => by
    have := Nat.mod_lt i hm
    show (if i / m % 2 = 0 then i % m else m - 1 - i % m) < m
    split
    · exact this
    · exact lt_of_le_of_lt (Nat.sub_le _ _) (by omega)
  face := fun i hi d hd => by
    obtain ⟨b, q, hq, rfl⟩ : ∃ b q, q < m ∧ i = m * b + q := ⟨i / m, i % m, Nat.mod_lt i hm, (Nat.div_add_mod i m).symm⟩
    have split' : ∀ b q, q < m → (m * b + q) / m = b ∧ (m * b + q) % m = q := fun b q hq =>
      ⟨by rw [Nat.mul_add_div hm, Nat.div_eq_of_lt hq, Nat.add_zero], by rw [Nat.mul_add_mod, Nat.mod_eq_of_lt hq]⟩
    have hbr : b < r := by
      by_contra hn
      have : m * r ≤ m * b := Nat.mul_le_mul_left _ (by omega)
      omega
    have top : ∀ b, b + 1 < r → m * b + m + m ≤ m * r := fun b hb => by
      calc m * b + m + m = m * (b + 2) := by ring
        _ ≤ m * r := Nat.mul_le_mul_left _ hb
    have end' : ∀ b, b + 1 = r → m * b + m = m * r := fun b hb => by rw [← hb]; ring
    have low : 0 < b → m ≤ m * b := fun h => Nat.le_mul_of_pos_right _ h
    have hi' := hh b hbr q hq
    have up : q + 1 < m → m * b + q + 1 = m * b + (q + 1) := fun _ => rfl
    have nx : q = m - 1 → m * b + q + 1 = m * (b + 1) + 0 := fun h => by rw [h, Nat.mul_add]; omega
    have pv : q = 0 → 0 < b → m * b + q - 1 = m * (b - 1) + (m - 1) := fun h h0 => by
      obtain ⟨b, rfl⟩ : ∃ b', b = b' + 1 := ⟨b - 1, by omega⟩
      rw [h, Nat.mul_add]; simp; omega
    have dn : 0 < q → m * b + q - 1 = m * b + (q - 1) := fun _ => by omega
    simp only [Meets, AtEnd, step, turn, (split' b q hq).1, (split' b q hq).2]
    by_cases hb : b % 2 = 0
    · have t : decide (b % 2 = 1) = false := by simp; omega
      simp only [t, if_pos hb, Bool.false_eq_true, if_false] at hi' ⊢
      interval_cases d
      · by_cases e : q = 0
        · by_cases e0 : b = 0
          · exact Or.inl ⟨by simp [e, e0], by simp [e], Or.inr ⟨h1 0 hd, h2 0 hd⟩⟩
          · have := low (by omega)
            refine Or.inr (Or.inr ⟨by simp; omega, by simp [e], h2 0 hd, ?_⟩)
            simp only [if_true, pv e (by omega), (split' (b - 1) (m - 1) (by omega)).1, (split' (b - 1) (m - 1) (by omega)).2]
            rw [if_neg (by omega)]
            omega
        · refine Or.inr (Or.inl ⟨by simp; omega, by simp [e], ?_, hi', ?_⟩)
          · simp only [if_true, dn (by omega), (split' b (q - 1) (by omega)).1, (split' b (q - 1) (by omega)).2, if_pos hb]
          · simp only [if_true, dn (by omega)]
            rw [hh b hbr _ (by omega), if_pos hb]
      · by_cases e : q = m - 1
        · by_cases e0 : b + 1 = r
          · exact Or.inl ⟨by simp; have := end' b e0; omega, by simp [e], Or.inr ⟨h1 1 hd, h2 1 hd⟩⟩
          · have := top b (by omega)
            refine Or.inr (Or.inr ⟨by simp; omega, by simp [e], h2 1 hd, ?_⟩)
            simp only [one_ne_zero, if_false, nx e, (split' (b + 1) 0 hm).1, (split' (b + 1) 0 hm).2]
            rw [if_neg (by omega)]
            omega
        · have : m * b + m ≤ m * r := by
            calc m * b + m = m * (b + 1) := by ring
              _ ≤ m * r := Nat.mul_le_mul_left _ hbr
          refine Or.inr (Or.inl ⟨by simp; omega, by simp [e], ?_, hi', ?_⟩)
          · simp only [one_ne_zero, if_false, up (by omega), (split' b (q + 1) (by omega)).1, (split' b (q + 1) (by omega)).2, if_pos hb]
          · simp only [one_ne_zero, if_false, up (by omega)]
            rw [hh b hbr _ (by omega), if_pos hb]
    · have t : decide (b % 2 = 1) = true := by simp; omega
      simp only [t, if_neg hb, if_true] at hi' ⊢
      interval_cases d
      · by_cases e : q = 0
        · have e0 : b ≠ 0 := by omega
          have := low (by omega)
          refine Or.inr (Or.inr ⟨by simp; omega, by simp [e], h2 1 (by omega), ?_⟩)
          simp only [if_true, pv e (by omega), (split' (b - 1) (m - 1) (by omega)).1, (split' (b - 1) (m - 1) (by omega)).2]
          rw [if_pos (by omega)]
          omega
        · refine Or.inr (Or.inl ⟨by simp; omega, by simp; omega, ?_, hi', ?_⟩)
          · simp only [if_true, dn (by omega), (split' b (q - 1) (by omega)).1, (split' b (q - 1) (by omega)).2, if_neg hb, Nat.sub_zero,
              one_ne_zero, if_false]
            omega
          · simp only [if_true, dn (by omega), Nat.sub_zero, one_ne_zero, if_false]
            rw [hh b hbr _ (by omega), if_neg hb]
            congr 1
            omega
      · by_cases e : q = m - 1
        · by_cases e0 : b + 1 = r
          · exact Or.inl ⟨by simp; have := end' b e0; omega, by simp [e], Or.inr ⟨h1 1 hd, h2 0 (by omega)⟩⟩
          · have := top b (by omega)
            refine Or.inr (Or.inr ⟨by simp; omega, by simp [e], h2 0 (by omega), ?_⟩)
            simp only [one_ne_zero, if_false, nx e, (split' (b + 1) 0 hm).1, (split' (b + 1) 0 hm).2]
            rw [if_pos (by omega)]
            omega
        · have : m * b + m ≤ m * r := by
            calc m * b + m = m * (b + 1) := by ring
              _ ≤ m * r := Nat.mul_le_mul_left _ hbr
          refine Or.inr (Or.inl ⟨by simp; omega, by simp; omega, ?_, hi', ?_⟩)
          · simp only [one_ne_zero, if_false, up (by omega), (split' b (q + 1) (by omega)).1, (split' b (q + 1) (by omega)).2, if_neg hb,
              Nat.sub_self, if_true]
            omega
          · simp only [one_ne_zero, if_false, up (by omega), Nat.sub_self, if_true]
            rw [hh b hbr _ (by omega), if_neg hb]
            congr 1

/-! ## Fluxes -/

section fluxes
variable [LinearOrder K] [IsStrictOrderedRing K]

/-- What an incident current adds to the right hand side at a face. -/
def FixedSrc.enters (S : FixedSrc K) (g c leak : Nat) : K :=
  if leak < 2 * S.L.M.dim ∧ S.L.M.onBoundary c leak = true then
    8 * S.L.dc g c * S.jinAt g c leak / ((4 * S.L.dc g c + S.L.M.width c (leak / 2)) * S.L.M.width c (leak / 2)) else 0

theorem rhs_enters (S : FixedSrc K) (hdim : S.L.M.dim ≤ 3) {g c : Nat} (hg : g < S.L.mat.G) (hc : c < S.L.M.size) :
    S.rhs (c + g * S.L.M.size) = S.given g c + ∑ leak ∈ range 6, S.enters g c leak := by
  rw [C101_source S hdim hg hc]
  congr 1
  have : ∀ leak ∈ range 6, leak ∉ range (2 * S.L.M.dim) → S.enters g c leak = 0 := fun leak _ hn => by
    unfold FixedSrc.enters
    rw [if_neg fun h => hn (mem_range.2 h.1)]
  rw [← sum_subset (fun l hl => mem_range.2 (by have := mem_range.1 hl; omega)) this]
  refine sum_congr rfl fun leak hl => ?_
  unfold FixedSrc.enters
  have := mem_range.1 hl
  simp [this]

theorem enters_mirror (S : FixedSrc K) (ok : S.OK) {g c leak : Nat} (h : S.L.al leak = 1) : S.enters g c leak = 0 := by
  unfold FixedSrc.enters
  split
  · rename_i hl
    rcases ok.side leak hl.1 with e | ⟨_, e⟩
    · rw [h] at e
      exact absurd e one_ne_zero
    · unfold FixedSrc.jinAt
      rw [e]
      simp
  · rfl

/-- The problems with given sources lie over each other: sources and incident currents agree. -/
structure SrcOver (S S' : FixedSrc K) (σ ρ : Nat → Nat) (f : Nat → Nat → Nat) (fl : Nat → Nat → Bool) : Prop where
  ops : Folds S.L S'.L σ ρ f fl
  given : ∀ g < S.L.mat.G, ∀ c < S.L.M.size, S.given g c = S'.given g (onto S.L.M S'.L.M ρ f c)
  jin : ∀ g < S.L.mat.G, ∀ c < S.L.M.size, ∀ a < 3, ∀ d < 2, S.L.M.onBoundary c (2 * a + d) = true → S.L.al (2 * a + d) ≠ 1 →
    S.jinAt g c (2 * a + d) = S'.jinAt g (onto S.L.M S'.L.M ρ f c) (2 * σ a + turn (fl a (S.L.M.coord c a)) d)

variable {S S' : FixedSrc K} {σ ρ : Nat → Nat} {f : Nat → Nat → Nat} {fl : Nat → Nat → Bool}

theorem open_face (H : Folds S.L S'.L σ ρ f fl) {c a d : Nat} (hc : c < S.L.M.size) (ha : a < 3) (hd : d < 2)
    (hb : S.L.M.onBoundary c (2 * a + d) = true) (h1 : S.L.al (2 * a + d) ≠ 1) :
    S'.L.M.onBoundary (onto S.L.M S'.L.M ρ f c) (2 * σ a + turn (fl a (S.L.M.coord c a)) d) = true ∧
    S.L.al (2 * a + d) = S'.L.al (2 * σ a + turn (fl a (S.L.M.coord c a)) d) ∧
    S.L.M.width c a = S'.L.M.width (onto S.L.M S'.L.M ρ f c) (σ a) := by
  have b := (onBoundary_iff S.L.M c a hd).1 hb
  have b' := onBoundary_iff S'.L.M (onto S.L.M S'.L.M ρ f c) (σ a) (turn_lt (fl a (S.L.M.coord c a)) hd)
  have hco := onto_coord H hc ha
  rw [hco] at b'
  rcases (H.axis a ha).face _ (coord_lt S.L.M hc a) d hd with ⟨_, e', h⟩ | ⟨e, _⟩ | ⟨e, _⟩
  · rcases h with ⟨k1, k2⟩ | ⟨k1, _⟩
    · refine ⟨b'.2 e', k1, ?_⟩
      show S.L.M.h a _ = S'.L.M.h (σ a) (S'.L.M.coord _ (σ a))
      rw [hco, k2]
    · exact absurd k1 h1
  · exact absurd b e
  · exact absurd b e

theorem enters_over (ok : S.OK) (ok' : S'.OK) (H : SrcOver S S' σ ρ f fl) {g c : Nat} (hg : g < S.L.mat.G) (hc : c < S.L.M.size)
    {a d : Nat} (ha : a < 3) (hd : d < 2) : S.enters g c (2 * a + d) =
      S'.enters g (onto S.L.M S'.L.M ρ f c) (2 * σ a + turn (fl a (S.L.M.coord c a)) d) := by
  have hd2 := turn_lt (fl a (S.L.M.coord c a)) hd
  have hs := (H.ops.fwd a ha).1
  have hco := onto_coord H.ops hc ha
  have b := onBoundary_iff S.L.M c a hd
  have b' := onBoundary_iff S'.L.M (onto S.L.M S'.L.M ρ f c) (σ a) hd2
  rw [hco] at b'
  by_cases hb : S.L.M.onBoundary c (2 * a + d) = true
  · by_cases h1 : S.L.al (2 * a + d) = 1
    · rw [enters_mirror S ok h1]
      rcases (H.ops.axis a ha).face _ (coord_lt S.L.M hc a) d hd with ⟨_, _, h⟩ | ⟨e, _⟩ | ⟨e, _⟩
      · rcases h with ⟨k1, _⟩ | ⟨_, k2⟩
        · exact (enters_mirror S' ok' (k1.symm.trans h1)).symm
        · exact (enters_mirror S' ok' k2).symm
      · exact absurd (b.1 hb) e
      · exact absurd (b.1 hb) e
    · obtain ⟨p1, p2, p3⟩ := open_face H.ops hc ha hd hb h1
      have l1 : 2 * a + d < 2 * S.L.M.dim := by
        by_contra hn
        exact h1 (ok.flat _ (by omega) (by omega))
      have l2 : 2 * σ a + turn (fl a (S.L.M.coord c a)) d < 2 * S'.L.M.dim := by
        by_contra hn
        exact h1 (p2.trans (ok'.flat _ (by omega) (by omega)))
      unfold FixedSrc.enters
      rw [if_pos ⟨l1, hb⟩, if_pos ⟨l2, p1⟩, leak_at a hd, leak_at (σ a) hd2, H.jin g hg c hc a ha d hd hb h1, dc_over H.ops hc, p3]
  · have z : S.enters g c (2 * a + d) = 0 := if_neg fun h => hb h.2
    rw [z]
    rcases (H.ops.axis a ha).face _ (coord_lt S.L.M hc a) d hd with ⟨e, _⟩ | ⟨_, e', _⟩ | ⟨_, _, e, _⟩
    · exact absurd (b.2 e) hb
    · exact (if_neg fun h => e' (b'.1 h.2)).symm
    · exact (enters_mirror S' ok' e).symm

/-- Right hand sides agree. -/
theorem rhs_over (ok : S.OK) (ok' : S'.OK) (H : SrcOver S S' σ ρ f fl) {g c : Nat} (hg : g < S.L.mat.G) (hc : c < S.L.M.size) :
    S.rhs (c + g * S.L.M.size) = S'.rhs (onto S.L.M S'.L.M ρ f c + g * S'.L.M.size) := by
  rw [rhs_enters S ok.op.grid.dim_le hg hc, rhs_enters S' ok'.op.grid.dim_le (by rw [H.ops.mat]; exact hg) (onto_lt H.ops hc),
    H.given g hg c hc]
  congr 1
  exact faces_sum H.ops.fwd H.ops.back (fun a => fl a (S.L.M.coord c a)) fun a ha d hd => enters_over ok ok' H hg hc ha hd

/-- Spread out over the first problem, fluxes of the second solve it. -/
theorem C146_unfolds (ok : S.OK) (ok' : S'.OK) (H : SrcOver S S' σ ρ f fl) (srt : List (Trip K) → List (Trip K)) (hs : IsSort srt)
    (C C' : CSR K) (bs bs' : List Bool) (hC : S.L.sys.make srt = .ok (some C, bs)) (hC' : S'.L.sys.make srt = .ok (some C', bs'))
    (x x' : Nat → K) (hx' : ∀ p < S'.L.mat.G * S'.L.M.size, C'.multiply x' p = S'.rhs p)
    (hx : ∀ g < S.L.mat.G, ∀ c < S.L.M.size, x (c + g * S.L.M.size) = x' (onto S.L.M S'.L.M ρ f c + g * S'.L.M.size)) :
    ∀ p < S.L.mat.G * S.L.M.size, C.multiply x p = S.rhs p := by
  refine (solves_iff S ok srt hs C bs hC x).2 fun g hg c hc => ?_
  have h2 := (solves_iff S' ok' srt hs C' bs' hC' x').1 hx' g (by rw [H.ops.mat]; exact hg) _ (onto_lt H.ops hc)
  rw [lhs_over H.ops ((in_active ok).2 hg) (fun g hg c hc => by
    rw [ok.pos, ok'.pos]
    exact hx g ((in_active ok).1 hg) c hc) hc, h2, rhs_over ok ok' H hg hc]

/-- So the fluxes the solver finds for the first are those it finds for the second, spread out. -/
theorem C146_fluxes (ok : S.OK) (ok' : S'.OK) (hp : S.L.Pos) {u : Nat → K} (hW : S.L.Weak u) (H : SrcOver S S' σ ρ f fl)
    (srt : List (Trip K) → List (Trip K)) (hs : IsSort srt)
    (C C' : CSR K) (bs bs' : List Bool) (hC : S.L.sys.make srt = .ok (some C, bs)) (hC' : S'.L.sys.make srt = .ok (some C', bs'))
    (x x' : Nat → K) (hx : ∀ p < S.L.mat.G * S.L.M.size, C.multiply x p = S.rhs p)
    (hx' : ∀ p < S'.L.mat.G * S'.L.M.size, C'.multiply x' p = S'.rhs p) {g c : Nat} (hg : g < S.L.mat.G) (hc : c < S.L.M.size) :
    x (c + g * S.L.M.size) = x' (onto S.L.M S'.L.M ρ f c + g * S'.L.M.size) := by
  obtain ⟨z, _, one⟩ := C132_diffusion_one S ok hp srt hs C bs hC hW
  have hn : ∀ g c, c < S.L.M.size → (c + g * S.L.M.size) % S.L.M.size = c ∧ (c + g * S.L.M.size) / S.L.M.size = g := fun g c hc => by
    have : 0 < S.L.M.size := by omega
    exact ⟨by rw [Nat.add_mul_mod_self_right, Nat.mod_eq_of_lt hc], by rw [Nat.add_mul_div_right _ _ this, Nat.div_eq_of_lt hc, Nat.zero_add]⟩
  have hlt : c + g * S.L.M.size < S.L.mat.G * S.L.M.size :=
    calc c + g * S.L.M.size < (g + 1) * S.L.M.size := by rw [Nat.add_mul]; omega
      _ ≤ S.L.mat.G * S.L.M.size := Nat.mul_le_mul_right _ hg
  have := C146_unfolds ok ok' H srt hs C C' bs bs' hC hC'
    (fun p => x' (onto S.L.M S'.L.M ρ f (p % S.L.M.size) + p / S.L.M.size * S'.L.M.size)) x' hx'
    fun g _ c hc => by rw [(hn g c hc).1, (hn g c hc).2]
  rw [one x hx _ hlt, ← one _ this _ hlt, (hn g c hc).1, (hn g c hc).2]

/-- And so are the currents it stores for the open sides. -/
theorem C146_currents (H : SrcOver S S' σ ρ f fl) {x x' : Nat → K}
    (h : ∀ g < S.L.mat.G, ∀ c < S.L.M.size, x (c + g * S.L.M.size) = x' (onto S.L.M S'.L.M ρ f c + g * S'.L.M.size))
    {g c a d : Nat} (hg : g < S.L.mat.G) (hc : c < S.L.M.size) (ha : a < 3) (hd : d < 2)
    (hb : S.L.M.onBoundary c (2 * a + d) = true) (h1 : S.L.al (2 * a + d) ≠ 1) :
    S.joutAt x g c (2 * a + d) = S'.joutAt x' g (onto S.L.M S'.L.M ρ f c) (2 * σ a + turn (fl a (S.L.M.coord c a)) d) := by
  have hd2 := turn_lt (fl a (S.L.M.coord c a)) hd
  have hs := (H.ops.fwd a ha).1
  obtain ⟨p1, _, p3⟩ := open_face H.ops hc ha hd hb h1
  rw [joutAt_eq S x hc (by omega) hb, joutAt_eq S' x' (onto_lt H.ops hc) (by omega) p1, leak_at a hd, leak_at (σ a) hd2,
    H.jin g hg c hc a ha d hd hb h1, dc_over H.ops hc, p3, h g hg c hc]

end fluxes

/-! ## Multiplication factors -/

section factors
variable [LinearOrder K] [IsStrictOrderedRing K] {L L' : Loss K} {σ ρ : Nat → Nat} {f : Nat → Nat → Nat} {fl : Nat → Nat → Bool}

theorem makes_over (H : Folds L L' σ ρ f fl) {c : Nat} (hc : c < L.M.size) (g : Nat) :
    makes L.src g c = makes L'.src g (onto L.M L'.M ρ f c) := by
  show (if L.adjoint then L.mat.chi g (L.mmap c) else L.mat.nuSigF g (L.mmap c)) =
    if L'.adjoint then L'.mat.chi g (L'.mmap _) else L'.mat.nuSigF g (L'.mmap _)
  rw [H.adjoint, H.mat, H.mm c hc]

theorem emits_over (H : Folds L L' σ ρ f fl) {c : Nat} (hc : c < L.M.size) (g : Nat) :
    emits L.src g c = emits L'.src g (onto L.M L'.M ρ f c) := by
  show (if L.adjoint then L.mat.nuSigF g (L.mmap c) else L.mat.chi g (L.mmap c)) =
    if L'.adjoint then L'.mat.nuSigF g (L'.mmap _) else L'.mat.chi g (L'.mmap _)
  rw [H.adjoint, H.mat, H.mm c hc]

theorem dens_over (H : Folds L L' σ ρ f fl) {x x' : Nat → K}
    (hx : ∀ g < L.mat.G, ∀ c < L.M.size, x (c + g * L.M.size) = x' (onto L.M L'.M ρ f c + g * L'.M.size)) {c : Nat} (hc : c < L.M.size) :
    L.dens x c = L'.dens x' (onto L.M L'.M ρ f c) := by
  unfold Loss.dens
  rw [H.mat]
  exact sum_congr rfl fun g hg => by rw [makes_over H hc, hx g (mem_range.1 hg) c hc]

/-- A mode of the second, spread out, is a mode of the first with the same factor. -/
theorem C146_modes {u u' : Nat → K} (h : Subcritical L u) (h' : Subcritical L' u') (H : Folds L L' σ ρ f fl)
    (srt : List (Trip K) → List (Trip K)) (hs : IsSort srt) {C C' : CSR K} {bs bs' : List Bool}
    (hC : L.sys.make srt = .ok (some C, bs)) (hC' : L'.sys.make srt = .ok (some C', bs')) {k : K} {x x' : Nat → K}
    (hx' : DiffEigen L' C' k x')
    (hx : ∀ g < L.mat.G, ∀ c < L.M.size, x (c + g * L.M.size) = x' (onto L.M L'.M ρ f c + g * L'.M.size)) : DiffEigen L C k x := by
  refine C146_unfolds (S := L.fed _) (S' := L'.fed _) (fed_ok h _) (fed_ok h' _) ⟨H, fun g hg c hc => ?_, fun _ _ _ _ _ _ _ _ _ _ => rfl⟩
    srt hs C C' bs bs' hC hC' x x' hx' hx
  unfold FixedSrc.given Loss.fed
  have hc : c < L.M.size := hc
  have e : L.dens x c * emits L.src g c = L'.dens x' (onto L.M L'.M ρ f c) * emits L'.src g (onto L.M L'.M ρ f c) := by
    rw [dens_over H hx hc, emits_over H hc]
  simp [h.outside, h'.outside, e]

/-- The two have the same fundamental multiplication factor. -/
theorem C146_factor {u u' : Nat → K} (h : Subcritical L u) (h' : Subcritical L' u') (H : Folds L L' σ ρ f fl)
    (srt : List (Trip K) → List (Trip K)) (hs : IsSort srt) {C C' : CSR K} {bs bs' : List Bool}
    (hC : L.sys.make srt = .ok (some C, bs)) (hC' : L'.sys.make srt = .ok (some C', bs')) (hd : Data L.src) {k k' : K}
    (h0 : 0 < k) (h0' : 0 < k') {x x' : Nat → K} (hx : DiffEigen L C k x) (hp : ∀ c, Fissile L.src c → 0 < L.dens x c)
    (hx' : DiffEigen L' C' k' x') (hp' : ∀ c, Fissile L'.src c → 0 < L'.dens x' c) (hne : ∃ c, Fissile L.src c) : k = k' := by
  obtain ⟨S, hS⟩ := C133_diffusion_fluxes h srt hs hC
  have hn : ∀ g c, c < L.M.size → (c + g * L.M.size) % L.M.size = c ∧ (c + g * L.M.size) / L.M.size = g := fun g c hc => by
    have : 0 < L.M.size := by omega
    exact ⟨by rw [Nat.add_mul_mod_self_right, Nat.mod_eq_of_lt hc], by rw [Nat.add_mul_div_right _ _ this, Nat.div_eq_of_lt hc, Nat.zero_add]⟩
  have hy : ∀ g < L.mat.G, ∀ c < L.M.size,
      (fun p => x' (onto L.M L'.M ρ f (p % L.M.size) + p / L.M.size * L'.M.size)) (c + g * L.M.size) =
        x' (onto L.M L'.M ρ f c + g * L'.M.size) := fun g _ c hc => by simp only [(hn g c hc).1, (hn g c hc).2]
  have m := C133_diffusion_mode h srt hs hC hS h0'.ne' (C146_modes (x := fun p => x' (onto L.M L'.M ρ f (p % L.M.size) + p / L.M.size * L'.M.size)) h h' H srt hs hC hC' hx' hy)
  refine EigenPI.C133_one (C133_diffusion_solver h srt hs hC hS) hd (C133_diffusion_mode h srt hs hC hS h0.ne' hx) h0 hp m h0' (fun c hc => ?_)
    hne
  have hc' : c < L.M.size := hc.1
  rw [dens_over H hy hc']
  obtain ⟨_, g, hg, hm⟩ := hc
  refine hp' _ ⟨onto_lt H hc', g, ?_, ?_⟩
  · show g < L'.mat.G
    rw [H.mat]
    exact hg
  · rwa [← makes_over H hc']

end factors

/-! ## Cases -/

section cases
variable [LinearOrder K] [IsStrictOrderedRing K]

/-- The two materials of `core` arranged on a rectangle. -/
def plate (nx ny : Nat) (h : Nat → K) (mm : Nat → Nat) (al : Nat → K) : Loss K :=
  { core K mm 0 with M := ⟨2, nx, ny, 1, fun a i => if a = 2 then 1 else h i⟩, al := fun s => if s < 4 then al s else 1 }

theorem plate_inXs (nx ny : Nat) (h : Nat → K) (mm : Nat → Nat) (al : Nat → K) (g gp c : Nat) :
    (plate nx ny h mm al).inXs g gp c = if g = gp then 1 / 2 else if g = 1 then 1 / 4 else 0 := by
  simp [Loss.inXs, Loss.scatXs, plate, core, coreMat, Material.Mat.finalize]

theorem plate_makes (nx ny : Nat) (h : Nat → K) (mm : Nat → Nat) (al : Nat → K) (g c : Nat) :
    makes (plate nx ny h mm al).src g c = if g = 1 ∧ mm c = 0 then 1 / 2 else 0 := core_makes mm 0 g c

theorem plate_data (nx ny : Nat) (h : Nat → K) (mm : Nat → Nat) (al : Nat → K) : Data (plate nx ny h mm al).src :=
  ⟨fun g _ c _ => by
    rw [show emits (plate nx ny h mm al).src g c = _ from core_emits mm 0 g c]
    split <;> norm_num, fun g _ c _ => by rw [plate_makes]; split <;> norm_num⟩

theorem plate_ok (nx ny : Nat) (h : Nat → K) (mm : Nat → Nat) (al : Nat → K) (hm : ∀ c, mm c < 2) (ha : ∀ s, al s = 0 ∨ al s = 1)
    (jin : Nat → Nat → Nat → Nat → K) (hj : ∀ s, al s = 1 → ∀ g a b, jin s g a b = 0) (q : List (Option (Nat → Nat → K))) (q' : Option (Nat → Nat → K)) :
    FixedSrc.OK ⟨plate nx ny h mm al, q, q', jin⟩ := by
  refine ⟨⟨⟨show 2 ≤ 3 by decide, ?_⟩, ⟨coreMat K, rfl⟩, ?_, fun c _ => hm c, Nat.zero_le _⟩, rfl, fun leak hl => ?_, fun leak hl _ => ?_⟩
  · intro a h1 h2
    have : a = 2 := by
      have : 2 ≤ a := h1
      omega
    subst this
    rfl
  · intro g gp m
    show (0 : K) ≤ if g = gp then 1 / 2 else if g = 1 then 1 / 4 else 0
    split_ifs <;> norm_num
  · have hl : leak < 4 := hl
    show (if leak < 4 then al leak else 1) = 0 ∨ (if leak < 4 then al leak else 1) = 1 ∧ _
    rw [if_pos hl]
    rcases ha leak with h | h
    · exact .inl h
    · exact .inr ⟨h, hj leak h⟩
  · have hl : 4 ≤ leak := hl
    show (if leak < 4 then al leak else 1) = 1
    rw [if_neg (by omega)]

theorem plate_sub (nx ny : Nat) (h : Nat → K) (mm : Nat → Nat) (al : Nat → K) (hm : ∀ c, mm c < 2) (ha : ∀ s, al s = 0 ∨ al s = 1)
    (hh : ∀ i, 0 < h i) : Subcritical (plate nx ny h mm al) fun g => if g = 0 then 1 else 3 / 4 where
  ok := plate_ok nx ny h mm al hm ha _ (fun _ _ _ _ _ => rfl) _ _
  outside := rfl
  pos := ⟨fun a i => by
      show (0 : K) < if a = 2 then 1 else h i
      split
      · exact one_pos
      · exact hh i, fun g m => by
      show (0 : K) < if g = m then 1 else 1 / 2
      split <;> norm_num, fun s => by
      show -1 ≤ (if s < 4 then al s else 1) ∧ (if s < 4 then al s else 1) ≤ 1
      rcases ha s with e | e <;> rw [e] <;> split <;> norm_num⟩
  weak := by
    have act : (plate nx ny h mm al).active = range 2 :=
      Finset.ext fun g => (in_active (plate_ok nx ny h mm al hm ha (fun _ _ _ _ => 0) (fun _ _ _ _ _ => rfl) [] none)).trans (mem_range (n := 2)).symm
    refine ⟨fun g _ => by split <;> norm_num, fun g _ gp _ c _ => by rw [plate_inXs]; split_ifs <;> norm_num, fun g hg c _ => ?_⟩
    rw [act] at hg ⊢
    have hg := mem_range.1 hg
    show _ < (1 : K) * _
    rw [sum_range_succ, sum_range_one, plate_inXs, plate_inXs]
    interval_cases g <;> norm_num

/-- Four by four cells with unequal widths and the fuel inside, open on all sides. -/
def full : Loss ℚ := plate 4 4 (fun i => if i = 0 ∨ i = 3 then 2 else 1) (fun c => if c = 5 ∨ c = 6 ∨ c = 9 ∨ c = 10 then 0 else 1) fun _ => 0

/-- Its lower left quarter, with mirrors on the right and at the top. -/
def quarter : Loss ℚ := plate 2 2 (fun i => if i = 0 then 2 else 1) (fun c => if c = 3 then 0 else 1) fun s => if s = 1 ∨ s = 3 then 1 else 0

theorem quarter_folds : Folds full quarter id id
    (fun a i => if a = 2 then i else if i < 2 then i else 2 * 2 - 1 - i) (fun a i => if a = 2 then false else decide (2 ≤ i)) where
  fwd := fun a h => ⟨h, rfl⟩
  back := fun a h => ⟨h, rfl⟩
  axis := fun a ha => by
    have key : ∀ al al' : Nat → ℚ, al 0 = al' 0 → al 1 = al' 0 → al' 1 = 1 →
      Over (2 * 2) 2 (fun i => if i = 0 ∨ i = 3 then (2 : ℚ) else 1) (fun i => if i = 0 then 2 else 1) al al'
        (fun i => if i < 2 then i else 2 * 2 - 1 - i) fun i => decide (2 ≤ i) := fun al al' h0 h1 hm =>
      C146_half (fun i hi => by interval_cases i <;> decide +kernel) h0 h1 hm
    interval_cases a
    · exact key _ _ rfl rfl rfl
    · exact key _ _ rfl rfl rfl
    · exact C146_same (fun _ _ => rfl) fun d hd => by interval_cases d <;> rfl
  mat := rfl
  mm := fun c hc => by
    have hc : c < 16 := hc
    interval_cases c <;> decide +kernel
  adjoint := rfl
  cutoff := rfl
  fission := rfl
  sf := rfl
  keff := rfl

/-- The reactor and its quarter have the same factor. -/
example (srt : List (Trip ℚ) → List (Trip ℚ)) (hs : IsSort srt) {C C' : CSR ℚ} {bs bs' : List Bool}
    (hC : full.sys.make srt = .ok (some C, bs)) (hC' : quarter.sys.make srt = .ok (some C', bs')) {k k' : ℚ}
    (h0 : 0 < k) (h0' : 0 < k') {x x' : Nat → ℚ} (hx : DiffEigen full C k x) (hp : ∀ c, Fissile full.src c → 0 < full.dens x c)
    (hx' : DiffEigen quarter C' k' x') (hp' : ∀ c, Fissile quarter.src c → 0 < quarter.dens x' c) : k = k' :=
  C146_factor (plate_sub _ _ _ _ _ (fun c => by split <;> decide) (fun _ => Or.inl rfl) fun i => by split <;> norm_num)
    (plate_sub _ _ _ _ _ (fun c => by split <;> decide) (fun s => by by_cases h : s = 1 ∨ s = 3 <;> simp [h]) fun i => by split <;> norm_num)
    quarter_folds srt hs hC hC' (plate_data _ _ _ _ _) h0 h0' hx hp hx' hp'
    ⟨5, show 5 < 16 by decide, 1, show 1 < 2 by decide, by rw [plate_makes]; norm_num⟩

/-- And with currents entering the quarter at the left and below, and the whole through all its sides alike, the same fluxes. -/
example (srt : List (Trip ℚ) → List (Trip ℚ)) (hs : IsSort srt) {C C' : CSR ℚ} {bs bs' : List Bool}
    (hC : full.sys.make srt = .ok (some C, bs)) (hC' : quarter.sys.make srt = .ok (some C', bs')) {x x' : Nat → ℚ}
    (hx : ∀ p < 2 * 16, C.multiply x p = FixedSrc.rhs ⟨full, [some fun _ _ => 3], none, fun _ _ _ _ => 1⟩ p)
    (hx' : ∀ p < 2 * 4, C'.multiply x' p =
      FixedSrc.rhs ⟨quarter, [some fun _ _ => 3], none, fun s _ _ _ => if s = 1 ∨ s = 3 then 0 else 1⟩ p) :
    x 15 = x' 0 ∧ x (9 + 16) = x' (3 + 4) ∧ x 11 = x' 2 := by
  have h := fun g (hg : g < 2) c (hc : c < 16) => C146_fluxes (S := ⟨full, [some fun _ _ => 3], none, fun _ _ _ _ => 1⟩)
    (S' := ⟨quarter, [some fun _ _ => 3], none, fun s _ _ _ => if s = 1 ∨ s = 3 then 0 else 1⟩)
    (plate_ok _ _ _ _ _ (fun c => by split <;> decide) (fun _ => Or.inl rfl) _ (fun _ h => absurd h (by norm_num)) _ _)
    (plate_ok _ _ _ _ _ (fun c => by split <;> decide) (fun s => by by_cases h : s = 1 ∨ s = 3 <;> simp [h]) _
      (fun s h => by by_cases e : s = 1 ∨ s = 3 <;> simp [e] at h ⊢) _ _)
    (plate_sub _ _ _ _ _ (fun c => by split <;> decide) (fun _ => Or.inl rfl) fun i => by split <;> norm_num).pos
    (plate_sub _ _ _ _ _ (fun c => by split <;> decide) (fun _ => Or.inl rfl) fun i => by split <;> norm_num).weak
    ⟨quarter_folds, fun g _ c _ => rfl, fun g hg c hc a ha d hd _ _ => by
      have hc : c < 16 := hc
      have hg : g < 2 := hg
      have key : ∀ c < 16, ∀ a < 2, ∀ d < 2, decide (full.M.onBoundary c (2 * a + d) = true →
        2 * a + turn (if a = 2 then false else decide (2 ≤ full.M.coord c a)) d ≠ 1 ∧
        2 * a + turn (if a = 2 then false else decide (2 ≤ full.M.coord c a)) d ≠ 3) = true := by decide +kernel
      have ha : a < 2 := by
        by_contra hn
        have : a = 2 := by omega
        subst this
        exact ‹full.al (2 * 2 + d) ≠ 1› (by interval_cases d <;> rfl)
      obtain ⟨k1, k2⟩ := of_decide_eq_true (key c hc a ha d hd) ‹_›
      show (1 : ℚ) = if _ = 1 ∨ _ = 3 then 0 else 1
      rw [if_neg]
      exact not_or.2 ⟨k1, k2⟩⟩
    srt hs C C' bs bs' hC hC' x x' hx hx' hg hc
  exact ⟨h 0 (by decide) 15 (by decide), h 1 (by decide) 9 (by decide), h 0 (by decide) 11 (by decide)⟩

/-- Either side of the diagonal of the quarter the fluxes are the same. -/
example (srt : List (Trip ℚ) → List (Trip ℚ)) (hs : IsSort srt) {C : CSR ℚ} {bs : List Bool}
    (hC : quarter.sys.make srt = .ok (some C, bs)) {x : Nat → ℚ}
    (hx : ∀ p < 2 * 4, C.multiply x p = FixedSrc.rhs ⟨quarter, [some fun c g => if c = 3 then g + 1 else 2], none, fun _ _ _ _ => 0⟩ p) : x 1 = x 2 := by
  let sw : Nat → Nat := fun a => if a = 0 then 1 else if a = 1 then 0 else a
  have e : ∀ a < 3, sw a < 3 ∧ sw (sw a) = a := by decide
  have ok := plate_ok (K := ℚ) 2 2 (fun i => if i = 0 then 2 else 1) (fun c => if c = 3 then 0 else 1) (fun s => if s = 1 ∨ s = 3 then 1 else 0)
    (fun c => by split <;> decide) (fun s => by by_cases h : s = 1 ∨ s = 3 <;> simp [h]) (fun _ _ _ _ => 0)
      (fun _ _ _ _ _ => rfl) [some fun c g => if c = 3 then g + 1 else 2] none
  have sub := plate_sub (K := ℚ) 2 2 (fun i => if i = 0 then 2 else 1) (fun c => if c = 3 then 0 else 1) (fun s => if s = 1 ∨ s = 3 then 1 else 0)
    (fun c => by split <;> decide) (fun s => by by_cases h : s = 1 ∨ s = 3 <;> simp [h]) fun i => by split <;> norm_num
  refine C146_fluxes (S := ⟨quarter, [some fun c g => if c = 3 then g + 1 else 2], none, fun _ _ _ _ => 0⟩) (σ := sw) (ρ := sw) (f := fun _ i => i)
    (fl := fun _ _ => false) ok ok sub.pos sub.weak
    ⟨⟨e, e, fun a ha => ?_, rfl, fun c hc => ?_, rfl, rfl, rfl, rfl, rfl⟩, fun g _ c hc => ?_, fun _ _ _ _ _ _ _ _ _ _ => rfl⟩
    srt hs C C bs bs hC hC x x hx hx (g := 0) (c := 1) (by decide) (by decide)
  · interval_cases a
    · exact C146_same (fun _ _ => rfl) fun d hd => by interval_cases d <;> rfl
    · exact C146_same (fun _ _ => rfl) fun d hd => by interval_cases d <;> rfl
    · exact C146_same (fun _ _ => rfl) fun d hd => by interval_cases d <;> rfl
  · have hc : c < 4 := hc
    interval_cases c <;> decide +kernel
  · have hc : c < 4 := hc
    interval_cases c <;> rfl

/-- Eight cells that are four times the same two, and a row of two. -/
example : Over (2 * 4) 2 (fun i => if i = 0 ∨ i = 3 ∨ i = 4 ∨ i = 7 then (2 : ℚ) else 1) (fun i => if i = 0 then 2 else 1) (fun _ => 1) (fun _ => 1)
    (fun i => if i / 2 % 2 = 0 then i % 2 else 2 - 1 - i % 2) fun i => decide (i / 2 % 2 = 1) :=
  C146_lattice (by decide) (by decide +kernel) (fun _ _ => rfl) fun _ _ => rfl

end cases

end Detran.Diffusion
