import Verif.Props.GaussSeidel

/-!
# Directions seen in a mirror, for C140 and C141
-/

namespace Detran.Sweep

variable {K : Type}

/-- The octant seen in a mirror normal to the first axis (Quadrature.cc:40-72 lists the octants). -/
def fx (o : Nat) : Nat := [1, 0, 3, 2, 5, 4, 7, 6].getD o 0

/-- Of an octant and its mirror image, the one that goes to larger `x`. -/
def xpos (o : Nat) : Nat := [0, 0, 3, 3, 4, 4, 7, 7].getD o 0

/-- Of an octant and its mirror image, the one that goes to smaller `x`. -/
def xneg (o : Nat) : Nat := [1, 1, 2, 2, 5, 5, 6, 6].getD o 0

/-- The octant seen in a mirror along the diagonal. -/
def fd (o : Nat) : Nat := [0, 3, 2, 1].getD o 0

/-- The side a side turns into in that mirror. -/
def sd (s : Nat) : Nat := [2, 3, 0, 1].getD s 0

/-- The side a side turns into in a mirror normal to the first axis. -/
def sx (s : Nat) : Nat := [1, 0, 2, 3, 4, 5].getD s 0

theorem fx_sign : ∀ o < 8, (0 < octantSign (fx o) 0 ↔ ¬ 0 < octantSign o 0) ∧
    (0 < octantSign (fx o) 1 ↔ 0 < octantSign o 1) ∧ (0 < octantSign (fx o) 2 ↔ 0 < octantSign o 2) := by decide

theorem xpos_sign : ∀ o < 8, (0 < octantSign (xpos o) 0) ∧ (¬ 0 < octantSign (xneg o) 0) ∧
    (0 < octantSign (xpos o) 1 ↔ 0 < octantSign o 1) ∧ (0 < octantSign (xpos o) 2 ↔ 0 < octantSign o 2) ∧
    (0 < octantSign (xneg o) 1 ↔ 0 < octantSign o 1) ∧ (0 < octantSign (xneg o) 2 ↔ 0 < octantSign o 2) := by decide

theorem xpos_eq : ∀ o < 8, (0 < octantSign o 0 → xpos o = o ∧ xneg o = fx o) ∧
    (¬ 0 < octantSign o 0 → xpos o = fx o ∧ xneg o = o) := by decide

theorem fx_lt : ∀ o, (o < 2 → fx o < 2 ∧ xpos o < 2 ∧ xneg o < 2) ∧ (o < 4 → fx o < 4 ∧ xpos o < 4 ∧ xneg o < 4) ∧
    (o < 8 → fx o < 8 ∧ xpos o < 8 ∧ xneg o < 8) := by
  intro o
  have h1 : ∀ o < 2, fx o < 2 ∧ xpos o < 2 ∧ xneg o < 2 := by decide
  have h2 : ∀ o < 4, fx o < 4 ∧ xpos o < 4 ∧ xneg o < 4 := by decide
  have h3 : ∀ o < 8, fx o < 8 ∧ xpos o < 8 ∧ xneg o < 8 := by decide
  exact ⟨h1 o, h2 o, h3 o⟩

theorem posn_congr {n o o' d d' p : Nat} (h : 0 < octantSign o d ↔ 0 < octantSign o' d') : posn n o d p = posn n o' d' p := by
  unfold posn; simp only [h]

theorem entry_congr {o o' d : Nat} (h : 0 < octantSign o d ↔ 0 < octantSign o' d) :
    entry o d = entry o' d ∧ exit o d = exit o' d := by
  unfold entry exit; simp only [h, and_self]

theorem posn_fx {n o p : Nat} (ho : o < 8) (hp : p < n) : posn n (fx o) 0 p = n - 1 - posn n o 0 p := by
  have := (fx_sign o ho).1
  unfold posn
  by_cases h : 0 < octantSign o 0
  · rw [if_pos h, if_neg (by rw [this]; exact not_not.2 h)]
  · rw [if_neg h, if_pos (this.2 h)]; omega

theorem entry_fx {o : Nat} (ho : o < 8) : entry (fx o) 0 = sx (entry o 0) ∧ exit (fx o) 0 = sx (exit o 0) := by
  have := (fx_sign o ho).1
  unfold entry exit
  by_cases h : 0 < octantSign o 0
  · rw [if_pos h, if_pos h, if_neg (by rw [this]; exact not_not.2 h), if_neg (by rw [this]; exact not_not.2 h)]
    exact ⟨rfl, rfl⟩
  · rw [if_neg h, if_neg h, if_pos (this.2 h), if_pos (this.2 h)]
    exact ⟨rfl, rfl⟩

/-! ## 1-D -/

theorem flip1 {n o : Nat} {eq eq' : Nat → K → K × K} {b b' p p' : Nat → K} (ho : o < 2)
    (he : ∀ i < n, eq i = eq' (n - 1 - i)) (hp : ∀ i < n, p i = p' (n - 1 - i)) (hb : ∀ s < 2, b s = b' (sx s))
    (h : Solves1 n eq' (fx o) b' p') : Solves1 n eq o b p := by
  obtain ⟨V, h1, h2, h3⟩ := h
  have ho8 : o < 8 := by omega
  obtain ⟨e1, e2⟩ := entry_fx ho8
  obtain ⟨s1, s2, -⟩ := WGReflect.entry_facts 1 (by omega) (by omega) o (by omega) 0 (by omega)
  refine ⟨V, ?_, ?_, fun q hq => ?_⟩
  · rw [h1, hb _ s1, e1]
  · rw [hb _ s2, ← e2, h2]
  · have hi := WGReflect.posn_lt (o := o) (d := 0) hq
    have := h3 q hq
    rw [posn_fx ho8 hq] at this
    rw [he _ hi, hp _ hi, this]

/-- Along the path of a direction through the doubled slab: first the cells of the half in order, then back. -/
theorem fold_posn {n o q : Nat} (ho : o < 8) :
    (q < n → (if posn (2 * n) o 0 q < n then posn (2 * n) o 0 q else 2 * n - 1 - posn (2 * n) o 0 q) = q ∧
      (if posn (2 * n) o 0 q < n then o else fx o) = xpos o) ∧
    (n ≤ q → q < 2 * n → (if posn (2 * n) o 0 q < n then posn (2 * n) o 0 q else 2 * n - 1 - posn (2 * n) o 0 q) =
      n - 1 - (q - n) ∧ (if posn (2 * n) o 0 q < n then o else fx o) = xneg o) := by
  obtain ⟨k1, k2⟩ := xpos_eq o ho
  unfold posn
  by_cases h : 0 < octantSign o 0
  · obtain ⟨e1, e2⟩ := k1 h
    simp only [if_pos h]
    refine ⟨fun hq => ?_, fun hq hq' => ?_⟩
    · rw [if_pos hq, if_pos hq, e1]; exact ⟨rfl, rfl⟩
    · rw [if_neg (by omega), if_neg (by omega), e2]; exact ⟨by omega, rfl⟩
  · obtain ⟨e1, e2⟩ := k2 h
    simp only [if_neg h]
    refine ⟨fun hq => ?_, fun hq hq' => ?_⟩
    · rw [if_neg (by omega), if_neg (by omega), e1]; exact ⟨by omega, rfl⟩
    · rw [if_pos (by omega), if_pos (by omega), e2]; exact ⟨by omega, rfl⟩

theorem posn_xpos {n o q : Nat} (ho : o < 8) : posn n (xpos o) 0 q = q := by
  unfold posn; rw [if_pos (xpos_sign o ho).1]

theorem posn_xneg {n o q : Nat} (ho : o < 8) : posn n (xneg o) 0 q = n - 1 - q := by
  unfold posn; rw [if_neg (xpos_sign o ho).2.1]

theorem side_xpos {o : Nat} (ho : o < 8) : entry (xpos o) 0 = 0 ∧ exit (xpos o) 0 = 1 ∧ entry (xneg o) 0 = 1 ∧
    exit (xneg o) 0 = 0 := by
  obtain ⟨h1, h2, -⟩ := xpos_sign o ho
  unfold entry exit
  rw [if_pos h1, if_pos h1, if_neg h2, if_neg h2]
  exact ⟨rfl, rfl, rfl, rfl⟩

/-- A direction through the doubled slab is the two directions through the half, joined at its reflecting side. -/
theorem fold1 {n o : Nat} {eq : Nat → K → K × K} {eq' : Nat → Nat → K → K × K} {b p : Nat → K} {b' p' : Nat → Nat → K}
    (hn : 0 < n) (ho : o < 2)
    (he : ∀ i < 2 * n, eq i = eq' (if i < n then o else fx o) (if i < n then i else 2 * n - 1 - i))
    (hp : ∀ i < 2 * n, p i = p' (if i < n then o else fx o) (if i < n then i else 2 * n - 1 - i))
    (hi : b (entry o 0) = b' (xpos o) 0) (ht : b (exit o 0) = b' (xneg o) 0)
    (hr : b' (xneg o) 1 = b' (xpos o) 1)
    (hP : Solves1 n (eq' (xpos o)) (xpos o) (b' (xpos o)) (p' (xpos o)))
    (hN : Solves1 n (eq' (xneg o)) (xneg o) (b' (xneg o)) (p' (xneg o))) : Solves1 (2 * n) eq o b p := by
  have ho8 : o < 8 := by omega
  obtain ⟨V, h1, h2, h3⟩ := hP
  obtain ⟨V', k1, k2, k3⟩ := hN
  obtain ⟨s1, s2, s3, s4⟩ := side_xpos ho8
  rw [s1] at h1; rw [s2] at h2; rw [s3] at k1; rw [s4] at k2
  have join : V n = V' 0 := by rw [← h2, k1, hr]
  refine ⟨fun q => if q ≤ n then V q else V' (q - n), ?_, ?_, fun q hq => ?_⟩
  · dsimp only; rw [hi, if_pos (by omega), h1]
  · dsimp only; rw [ht, if_neg (by omega), k2, show 2 * n - n = n by omega]
  · have hlt := WGReflect.posn_lt (o := o) (d := 0) hq
    rw [he _ hlt, hp _ hlt]
    obtain ⟨f1, f2⟩ := fold_posn (n := n) (q := q) ho8
    rcases Nat.lt_or_ge q n with hqn | hqn
    · obtain ⟨a1, a2⟩ := f1 hqn
      rw [a1, a2]
      have := h3 q hqn
      rw [posn_xpos ho8] at this
      dsimp only
      rw [if_pos (by omega), if_pos (by omega), this]
    · obtain ⟨a1, a2⟩ := f2 hqn hq
      rw [a1, a2]
      have := k3 (q - n) (by omega)
      rw [posn_xneg ho8] at this
      have e1 : (if q ≤ n then V q else V' (q - n)) = V' (q - n) := by
        split
        · obtain rfl : q = n := by omega
          rw [join, Nat.sub_self]
        · rfl
      dsimp only
      rw [e1, this, if_neg (by omega), show q + 1 - n = q - n + 1 by omega]

/-! ## 2-D -/

theorem idx {n i j : Nat} (hi : i < n) : (i + j * n) % n = i ∧ (i + j * n) / n = j := by
  constructor
  · rw [Nat.add_mul_mod_self_right, Nat.mod_eq_of_lt hi]
  · rw [Nat.add_mul_div_right _ _ (by omega : 0 < n), Nat.div_eq_of_lt hi, Nat.zero_add]

theorem flip2 {nx ny o : Nat} {eq eq' : Nat → Nat → K × K → K × (K × K)} {b b' : Nat → Nat → K} {p p' : Nat → K}
    (ho : o < 4) (he : ∀ i < nx, ∀ j < ny, eq i j = eq' (nx - 1 - i) j)
    (hp : ∀ i < nx, ∀ j < ny, p (i + j * nx) = p' (nx - 1 - i + j * nx))
    (hb0 : ∀ s < 2, ∀ j < ny, b s j = b' (sx s) j) (hb1 : ∀ s, 2 ≤ s → s < 4 → ∀ i < nx, b s i = b' s (nx - 1 - i))
    (h : Solves2 nx ny eq' (fx o) b' p') : Solves2 nx ny eq o b p := by
  obtain ⟨V, H, h1, h2, h3⟩ := h
  have ho8 : o < 8 := by omega
  obtain ⟨e1, e2⟩ := entry_fx ho8
  obtain ⟨e3, e4⟩ := entry_congr (fx_sign o ho8).2.1
  have en : ∀ o < 4, entry o 0 < 2 ∧ exit o 0 < 2 ∧ 2 ≤ entry o 1 ∧ entry o 1 < 4 ∧ 2 ≤ exit o 1 ∧ exit o 1 < 4 := by
    decide
  obtain ⟨s1, s2, s3, s4, s5, s6⟩ := en o ho
  have py : ∀ q, posn ny (fx o) 1 q = posn ny o 1 q := fun q => posn_congr (fx_sign o ho8).2.1
  refine ⟨V, H, fun q hq => ?_, fun q hq => ?_, fun q hq t ht => ?_⟩
  · have hj := WGReflect.posn_lt (o := o) (d := 1) hq
    obtain ⟨g1, g2⟩ := h1 q hq
    rw [py, e1] at g1
    rw [py, e2] at g2
    rw [hb0 _ s1 _ hj, hb0 _ s2 _ hj]
    exact ⟨g1, g2⟩
  · have hi := WGReflect.posn_lt (o := o) (d := 0) hq
    obtain ⟨g1, g2⟩ := h2 q hq
    rw [posn_fx ho8 hq, e3] at g1
    rw [posn_fx ho8 hq, e4] at g2
    rw [hb1 _ s3 s4 _ hi, hb1 _ s5 s6 _ hi]
    exact ⟨g1, g2⟩
  · have hi := WGReflect.posn_lt (o := o) (d := 0) hq
    have hj := WGReflect.posn_lt (o := o) (d := 1) ht
    have := h3 q hq t ht
    rw [posn_fx ho8 hq, py] at this
    rw [he _ hi _ hj, hp _ hi _ hj, this]

theorem fd_sign : ∀ o < 4, (0 < octantSign (fd o) 0 ↔ 0 < octantSign o 1) ∧ (0 < octantSign (fd o) 1 ↔ 0 < octantSign o 0) := by
  decide

theorem fd_side : ∀ o < 4, fd o < 4 ∧ entry (fd o) 0 = sd (entry o 1) ∧ exit (fd o) 0 = sd (exit o 1) ∧
    entry (fd o) 1 = sd (entry o 0) ∧ exit (fd o) 1 = sd (exit o 0) := by decide

/-- A cell equation with its axes exchanged. -/
def swapEq (f : K × K → K × (K × K)) (v : K × K) : K × (K × K) :=
  let r := f (v.2, v.1)
  (r.1, (r.2.2, r.2.1))

theorem turn2 {nx ny o : Nat} {eq eq' : Nat → Nat → K × K → K × (K × K)} {b b' : Nat → Nat → K} {p p' : Nat → K}
    (ho : o < 4) (he : ∀ i < nx, ∀ j < ny, eq i j = swapEq (eq' j i))
    (hp : ∀ i < nx, ∀ j < ny, p (i + j * nx) = p' (j + i * ny))
    (hb : ∀ s < 4, ∀ i < (if s < 2 then ny else nx), b s i = b' (sd s) i)
    (h : Solves2 ny nx eq' (fd o) b' p') : Solves2 nx ny eq o b p := by
  obtain ⟨V, H, h1, h2, h3⟩ := h
  obtain ⟨g0, g1⟩ := fd_sign o ho
  obtain ⟨_, e1, e2, e3, e4⟩ := fd_side o ho
  have en : ∀ o < 4, entry o 0 < 2 ∧ exit o 0 < 2 ∧ 2 ≤ entry o 1 ∧ entry o 1 < 4 ∧ 2 ≤ exit o 1 ∧ exit o 1 < 4 := by
    decide
  obtain ⟨s1, s2, s3, s4, s5, s6⟩ := en o ho
  have px : ∀ q, posn ny (fd o) 0 q = posn ny o 1 q := fun q => posn_congr g0
  have py : ∀ q, posn nx (fd o) 1 q = posn nx o 0 q := fun q => posn_congr g1
  refine ⟨fun p q => H q p, fun p q => V q p, fun q hq => ?_, fun q hq => ?_, fun q hq t ht => ?_⟩
  · have hj := WGReflect.posn_lt (o := o) (d := 1) hq
    obtain ⟨k1, k2⟩ := h2 q hq
    rw [px, e3] at k1
    rw [px, e4] at k2
    rw [hb _ (by omega) _ (by rw [if_pos s1]; exact hj), hb _ (by omega) _ (by rw [if_pos s2]; exact hj)]
    exact ⟨k1, k2⟩
  · have hi := WGReflect.posn_lt (o := o) (d := 0) hq
    obtain ⟨k1, k2⟩ := h1 q hq
    rw [py, e1] at k1
    rw [py, e2] at k2
    rw [hb _ s4 _ (by rw [if_neg (by omega)]; exact hi), hb _ s6 _ (by rw [if_neg (by omega)]; exact hi)]
    exact ⟨k1, k2⟩
  · have hi := WGReflect.posn_lt (o := o) (d := 0) hq
    have hj := WGReflect.posn_lt (o := o) (d := 1) ht
    have := h3 t ht q hq
    rw [px, py] at this
    rw [he _ hi _ hj, hp _ hi _ hj]
    simp only [swapEq, this]

theorem fold2 {n ny o : Nat} {eq : Nat → Nat → K × K → K × (K × K)} {eq' : Nat → Nat → Nat → K × K → K × (K × K)}
    {b : Nat → Nat → K} {b' : Nat → Nat → Nat → K} {p : Nat → K} {p' : Nat → Nat → K} (hn : 0 < n) (ho : o < 4)
    (he : ∀ i < 2 * n, ∀ j < ny, eq i j = eq' (if i < n then o else fx o) (if i < n then i else 2 * n - 1 - i) j)
    (hp : ∀ i < 2 * n, ∀ j < ny, p (i + j * (2 * n)) =
      p' (if i < n then o else fx o) ((if i < n then i else 2 * n - 1 - i) + j * n))
    (hi : ∀ j < ny, b (entry o 0) j = b' (xpos o) 0 j) (ht : ∀ j < ny, b (exit o 0) j = b' (xneg o) 0 j)
    (hr : ∀ j < ny, b' (xneg o) 1 j = b' (xpos o) 1 j)
    (hb : ∀ s, 2 ≤ s → s < 4 → ∀ i < 2 * n, b s i =
      b' (if i < n then o else fx o) s (if i < n then i else 2 * n - 1 - i))
    (hP : Solves2 n ny (eq' (xpos o)) (xpos o) (b' (xpos o)) (p' (xpos o)))
    (hN : Solves2 n ny (eq' (xneg o)) (xneg o) (b' (xneg o)) (p' (xneg o))) : Solves2 (2 * n) ny eq o b p := by
  have ho8 : o < 8 := by omega
  obtain ⟨V, H, h1, h2, h3⟩ := hP
  obtain ⟨V', H', k1, k2, k3⟩ := hN
  obtain ⟨s1, s2, s3, s4⟩ := side_xpos ho8
  obtain ⟨-, -, y1, -, y2, -⟩ := xpos_sign o ho8
  have q1 : ∀ q, posn ny (xpos o) 1 q = posn ny o 1 q := fun q => posn_congr y1
  have q2 : ∀ q, posn ny (xneg o) 1 q = posn ny o 1 q := fun q => posn_congr y2
  obtain ⟨e1, e2⟩ := entry_congr y1
  obtain ⟨e3, e4⟩ := entry_congr y2
  have en : ∀ o < 4, 2 ≤ entry o 1 ∧ entry o 1 < 4 ∧ 2 ≤ exit o 1 ∧ exit o 1 < 4 := by decide
  obtain ⟨t1, t2, t3, t4⟩ := en o ho
  simp only [s1, s2, q1] at h1
  simp only [s3, s4, q2] at k1
  simp only [e1, e2, posn_xpos ho8] at h2
  simp only [e3, e4, posn_xneg ho8] at k2
  simp only [posn_xpos ho8, q1] at h3
  simp only [posn_xneg ho8, q2] at k3
  have join : ∀ q < ny, V n q = V' 0 q := fun q hq => by
    rw [← (h1 q hq).2, (k1 q hq).1, hr _ (WGReflect.posn_lt hq)]
  refine ⟨fun p q => if p ≤ n then V p q else V' (p - n) q, fun p q => if p < n then H p q else H' (p - n) q,
    fun q hq => ?_, fun q hq => ?_, fun q hq t hty => ?_⟩
  · have hj := WGReflect.posn_lt (o := o) (d := 1) hq
    refine ⟨?_, ?_⟩
    · dsimp only; rw [hi _ hj, if_pos (by omega), (h1 q hq).1]
    · dsimp only; rw [ht _ hj, if_neg (by omega), (k1 q hq).2, show 2 * n - n = n by omega]
  · have hlt := WGReflect.posn_lt (o := o) (d := 0) hq
    rw [hb _ t1 t2 _ hlt, hb _ t3 t4 _ hlt]
    obtain ⟨f1, f2⟩ := fold_posn (n := n) (q := q) ho8
    rcases Nat.lt_or_ge q n with hqn | hqn
    · obtain ⟨a1, a2⟩ := f1 hqn
      dsimp only
      rw [a1, a2, if_pos hqn, if_pos hqn]
      exact h2 q hqn
    · obtain ⟨a1, a2⟩ := f2 hqn hq
      dsimp only
      rw [a1, a2, if_neg (by omega), if_neg (by omega)]
      exact k2 (q - n) (by omega)
  · have hlt := WGReflect.posn_lt (o := o) (d := 0) hq
    have hj := WGReflect.posn_lt (o := o) (d := 1) hty
    rw [he _ hlt _ hj, hp _ hlt _ hj]
    obtain ⟨f1, f2⟩ := fold_posn (n := n) (q := q) ho8
    rcases Nat.lt_or_ge q n with hqn | hqn
    · obtain ⟨a1, a2⟩ := f1 hqn
      rw [a1, a2]
      have := h3 q hqn t hty
      dsimp only
      rw [if_pos (by omega), if_pos (by omega), if_pos (by omega), if_pos (by omega), this]
    · obtain ⟨a1, a2⟩ := f2 hqn hq
      rw [a1, a2]
      have := k3 (q - n) (by omega) t hty
      have e1 : (if q ≤ n then V q t else V' (q - n) t) = V' (q - n) t := by
        split
        · obtain rfl : q = n := by omega
          rw [join t hty, Nat.sub_self]
        · rfl
      dsimp only
      rw [e1, if_neg (by omega), this, if_neg (by omega), if_neg (by omega), show q + 1 - n = q - n + 1 by omega]

/-! ## Fewer dimensions -/

/-- The direction of a slab that goes the way an octant of the plane goes in `x`. -/
def xr (o : Nat) : Nat := [0, 1, 1, 0].getD o 0

theorem xr_facts : ∀ o < 4, xr o < 2 ∧ (0 < octantSign (xr o) 0 ↔ 0 < octantSign o 0) := by decide

/-- A direction through a slab, drawn out along `y`: every horizontal face has the flux of its cell. -/
theorem spread2 {nx ny o : Nat} {eq : Nat → Nat → K × K → K × (K × K)} {eq' : Nat → K → K × K} {b : Nat → Nat → K}
    {b' p p' : Nat → K} (ho : o < 4)
    (he : ∀ i < nx, ∀ j < ny, ∀ v, eq i j (v, (eq' i v).1) = ((eq' i v).1, ((eq' i v).2, (eq' i v).1)))
    (hp : ∀ i < nx, ∀ j < ny, p (i + j * nx) = p' i) (hb0 : ∀ s < 2, ∀ j < ny, b s j = b' s)
    (hb1 : ∀ s, 2 ≤ s → s < 4 → ∀ i < nx, b s i = p' i) (h : Solves1 nx eq' (xr o) b' p') :
    Solves2 nx ny eq o b p := by
  obtain ⟨V, h1, h2, h3⟩ := h
  have hsg := (xr_facts o ho).2
  obtain ⟨e1, e2⟩ := entry_congr hsg
  have px : ∀ q, posn nx (xr o) 0 q = posn nx o 0 q := fun q => posn_congr hsg
  have en : ∀ o < 4, entry o 0 < 2 ∧ exit o 0 < 2 ∧ 2 ≤ entry o 1 ∧ entry o 1 < 4 ∧ 2 ≤ exit o 1 ∧ exit o 1 < 4 := by
    decide
  obtain ⟨s1, s2, s3, s4, s5, s6⟩ := en o ho
  refine ⟨fun q _ => V q, fun q _ => p' (posn nx o 0 q), fun q hq => ?_, fun q hq => ?_, fun q hq t ht => ?_⟩
  · have hj := WGReflect.posn_lt (o := o) (d := 1) hq
    rw [hb0 _ s1 _ hj, hb0 _ s2 _ hj, ← e1, ← e2]
    exact ⟨h1, h2⟩
  · have hi := WGReflect.posn_lt (o := o) (d := 0) hq
    rw [hb1 _ s3 s4 _ hi, hb1 _ s5 s6 _ hi]
    exact ⟨rfl, rfl⟩
  · have hi := WGReflect.posn_lt (o := o) (d := 0) hq
    have hj := WGReflect.posn_lt (o := o) (d := 1) ht
    have h4 := h3 q hq
    rw [px] at h4
    have := he _ hi _ hj (V q)
    rw [h4] at this
    rw [hp _ hi _ hj]
    exact this

theorem low_facts : ∀ o < 8, o % 4 < 4 ∧ (0 < octantSign (o % 4) 0 ↔ 0 < octantSign o 0) ∧
    (0 < octantSign (o % 4) 1 ↔ 0 < octantSign o 1) := by decide

/-- A direction through a plane, drawn out along `z`. -/
theorem spread3 {nx ny nz o : Nat} {eq : Nat → Nat → Nat → K × K × K → K × (K × K × K)}
    {eq' : Nat → Nat → K × K → K × (K × K)} {b : Nat → Nat → Nat → K} {b' : Nat → Nat → K} {p p' : Nat → K} (ho : o < 8)
    (he : ∀ i < nx, ∀ j < ny, ∀ k < nz, ∀ v, eq i j k (v.1, v.2, (eq' i j v).1) =
      ((eq' i j v).1, ((eq' i j v).2.1, (eq' i j v).2.2, (eq' i j v).1)))
    (hp : ∀ i < nx, ∀ j < ny, ∀ k < nz, p (i + j * nx + k * nx * ny) = p' (i + j * nx))
    (hb0 : ∀ s < 2, ∀ k < nz, ∀ j < ny, b s k j = b' s j) (hb1 : ∀ s, 2 ≤ s → s < 4 → ∀ k < nz, ∀ i < nx, b s k i = b' s i)
    (hb2 : ∀ s, 4 ≤ s → s < 6 → ∀ j < ny, ∀ i < nx, b s j i = p' (i + j * nx)) (h : Solves2 nx ny eq' (o % 4) b' p') :
    Solves3 nx ny nz eq o b p := by
  obtain ⟨V, H, h1, h2, h3⟩ := h
  obtain ⟨_, g0, g1⟩ := low_facts o ho
  obtain ⟨e1, e2⟩ := entry_congr g0
  obtain ⟨e3, e4⟩ := entry_congr g1
  have px : ∀ q, posn nx (o % 4) 0 q = posn nx o 0 q := fun q => posn_congr g0
  have py : ∀ q, posn ny (o % 4) 1 q = posn ny o 1 q := fun q => posn_congr g1
  have en : ∀ o < 8, entry o 0 < 2 ∧ exit o 0 < 2 ∧ (2 ≤ entry o 1 ∧ entry o 1 < 4 ∧ 2 ≤ exit o 1 ∧ exit o 1 < 4) ∧
      4 ≤ entry o 2 ∧ entry o 2 < 6 ∧ 4 ≤ exit o 2 ∧ exit o 2 < 6 := by decide
  obtain ⟨s1, s2, ⟨s3, s4, s5, s6⟩, s7, s8, s9, s10⟩ := en o ho
  refine ⟨fun q t _ => V q t, fun q t _ => H q t, fun q t _ => p' (posn nx o 0 q + posn ny o 1 t * nx),
    fun q hq t ht => ?_, fun q hq t ht => ?_, fun q hq t ht => ?_, fun q hq t ht u hu => ?_⟩
  · have hj := WGReflect.posn_lt (o := o) (d := 1) hq
    have hk := WGReflect.posn_lt (o := o) (d := 2) ht
    have := h1 q hq
    rw [py, e1, e2] at this
    rw [hb0 _ s1 _ hk _ hj, hb0 _ s2 _ hk _ hj]
    exact this
  · have hi := WGReflect.posn_lt (o := o) (d := 0) hq
    have hk := WGReflect.posn_lt (o := o) (d := 2) ht
    have := h2 q hq
    rw [px, e3, e4] at this
    rw [hb1 _ s3 s4 _ hk _ hi, hb1 _ s5 s6 _ hk _ hi]
    exact this
  · have hi := WGReflect.posn_lt (o := o) (d := 0) hq
    have hj := WGReflect.posn_lt (o := o) (d := 1) ht
    rw [hb2 _ s7 s8 _ hj _ hi, hb2 _ s9 s10 _ hj _ hi]
    exact ⟨rfl, rfl⟩
  · have hi := WGReflect.posn_lt (o := o) (d := 0) hq
    have hj := WGReflect.posn_lt (o := o) (d := 1) ht
    have hk := WGReflect.posn_lt (o := o) (d := 2) hu
    have h4 := h3 q hq t ht
    rw [px, py] at h4
    have := he _ hi _ hj _ hk (V q t, H q t)
    rw [h4] at this
    rw [hp _ hi _ hj _ hk]
    exact this

end Detran.Sweep
