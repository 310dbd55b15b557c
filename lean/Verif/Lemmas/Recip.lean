import Verif.Lemmas.SIPass

/-!
# A sweep and the sweep in the opposite direction (used for C130)
-/

namespace Detran.WGReflect

open Detran.Sweep
open Detran.Boundary (Bd BC Loc Enters Mirror faceCells)
open Finset

variable {K : Type} [Field K]

/-! ## Cells -/

/-- A 1-D cell entered by `e` with source `q` and, from the other side, by `e'` with source `q'`. -/
def Recip1 (f V : K) (sch : K → K → K × K) : Prop := ∀ q e q' e',
  V * (q * (sch q' e').1 - q' * (sch q e).1) = f * ((sch q e).2 * e' - e * (sch q' e').2)

def Recip2 (fx fy V : K) (sch : K → K × K → K × (K × K)) : Prop := ∀ q e q' e',
  V * (q * (sch q' e').1 - q' * (sch q e).1) =
    fx * ((sch q e).2.1 * e'.1 - e.1 * (sch q' e').2.1) + fy * ((sch q e).2.2 * e'.2 - e.2 * (sch q' e').2.2)

def Recip3 (fx fy fz V : K) (sch : K → K × K × K → K × (K × K × K)) : Prop := ∀ q e q' e',
  V * (q * (sch q' e').1 - q' * (sch q e).1) =
    fx * ((sch q e).2.1 * e'.1 - e.1 * (sch q' e').2.1) + fy * ((sch q e).2.2.1 * e'.2.1 - e.2.1 * (sch q' e').2.2.1) +
      fz * ((sch q e).2.2.2 * e'.2.2 - e.2.2 * (sch q' e').2.2.2)

theorem recip_dd1 (mu dx sig : K) (hdx : dx ≠ 0) (hc : sig + 2 * mu / dx ≠ 0) : Recip1 mu dx (dd1 mu dx sig) := by
  intro q e q' e'
  have key : ∀ q e, (sig + 2 * mu / dx) * (dd1 mu dx sig q e).1 = q + 2 * mu / dx * e := fun q e => by
    unfold dd1
    dsimp only
    rw [← mul_assoc, mul_one_div_cancel hc, one_mul]
  have h2 : ∀ q e, (dd1 mu dx sig q e).2 = 2 * (dd1 mu dx sig q e).1 - e := fun _ _ => rfl
  have k1 := key q e
  have k2 := key q' e'
  rw [h2, h2]
  generalize (dd1 mu dx sig q e).1 = c at *
  generalize (dd1 mu dx sig q' e').1 = c' at *
  have hx : dx * (2 * mu / dx) = 2 * mu := by field_simp
  linear_combination dx * c * k2 - dx * c' * k1 + (c * e' - c' * e) * hx

theorem recip_sd1 (mu dx sig : K) (hdx : dx ≠ 0) (hc : sig + mu / dx ≠ 0) : Recip1 mu dx (sd1 mu dx sig) := by
  intro q e q' e'
  have key : ∀ q e, (sig + mu / dx) * (sd1 mu dx sig q e).1 = q + mu / dx * e := fun q e => by
    unfold sd1
    dsimp only
    rw [← mul_assoc, mul_one_div_cancel hc, one_mul]
  have h2 : ∀ q e, (sd1 mu dx sig q e).2 = (sd1 mu dx sig q e).1 := fun _ _ => rfl
  have k1 := key q e
  have k2 := key q' e'
  rw [h2, h2]
  generalize (sd1 mu dx sig q e).1 = c at *
  generalize (sd1 mu dx sig q' e').1 = c' at *
  have hx : dx * (mu / dx) = mu := by field_simp
  linear_combination dx * c * k2 - dx * c' * k1 + (c * e' - c' * e) * hx

theorem recip_sc1 (ex : K → K) (mu dx sig : K) (hmu : mu ≠ 0) (hdx : dx ≠ 0) (hs : sig ≠ 0) :
    Recip1 mu dx (sc1 ex mu dx sig) := by
  intro q e q' e'
  unfold sc1
  dsimp only
  generalize ex (-(sig * dx / mu)) = A
  field_simp
  ring

theorem recip_dd2 (mu eta dx dy sig : K) (hdx : dx ≠ 0) (hdy : dy ≠ 0) (hc : sig + 2 * mu / dx + 2 * eta / dy ≠ 0) :
    Recip2 (mu * dy) (eta * dx) (dx * dy) (dd2 mu eta dx dy sig) := by
  intro q e q' e'
  have key : ∀ q e, (sig + 2 * mu / dx + 2 * eta / dy) * (dd2 mu eta dx dy sig q e).1 =
      q + 2 * mu / dx * e.1 + 2 * eta / dy * e.2 := fun q e => by
    unfold dd2
    dsimp only
    rw [← mul_assoc, mul_one_div_cancel hc, one_mul]
  have h2 : ∀ q e, (dd2 mu eta dx dy sig q e).2 =
      (2 * (dd2 mu eta dx dy sig q e).1 - e.1, 2 * (dd2 mu eta dx dy sig q e).1 - e.2) := fun _ _ => rfl
  have k1 := key q e
  have k2 := key q' e'
  rw [h2, h2]
  generalize (dd2 mu eta dx dy sig q e).1 = c at *
  generalize (dd2 mu eta dx dy sig q' e').1 = c' at *
  have hx : dx * dy * (2 * mu / dx) = 2 * (mu * dy) := by field_simp
  have hy : dx * dy * (2 * eta / dy) = 2 * (eta * dx) := by field_simp
  dsimp only
  linear_combination dx * dy * c * k2 - dx * dy * c' * k1 + (c * e'.1 - c' * e.1) * hx + (c * e'.2 - c' * e.2) * hy

theorem recip_sd2 (mu eta dx dy sig : K) (hdx : dx ≠ 0) (hdy : dy ≠ 0) (hc : sig + mu / dx + eta / dy ≠ 0) :
    Recip2 (mu * dy) (eta * dx) (dx * dy) (sd2 mu eta dx dy sig) := by
  intro q e q' e'
  have key : ∀ q e, (sig + mu / dx + eta / dy) * (sd2 mu eta dx dy sig q e).1 =
      q + mu / dx * e.1 + eta / dy * e.2 := fun q e => by
    unfold sd2
    dsimp only
    rw [← mul_assoc, mul_one_div_cancel hc, one_mul]
  have h2 : ∀ q e, (sd2 mu eta dx dy sig q e).2 =
      ((sd2 mu eta dx dy sig q e).1, (sd2 mu eta dx dy sig q e).1) := fun _ _ => rfl
  have k1 := key q e
  have k2 := key q' e'
  rw [h2, h2]
  generalize (sd2 mu eta dx dy sig q e).1 = c at *
  generalize (sd2 mu eta dx dy sig q' e').1 = c' at *
  have hx : dx * dy * (mu / dx) = mu * dy := by field_simp
  have hy : dx * dy * (eta / dy) = eta * dx := by field_simp
  dsimp only
  linear_combination dx * dy * c * k2 - dx * dy * c' * k1 + (c * e'.1 - c' * e.1) * hx + (c * e'.2 - c' * e.2) * hy

/-- For every exponential. -/
theorem recip_sc2 [LinearOrder K] [IsStrictOrderedRing K] (ex : K → K) (mu eta dx dy sig : K) (hmu : mu ≠ 0)
    (heta : eta ≠ 0) (hdx : dx ≠ 0) (hdy : dy ≠ 0) (hs : sig ≠ 0) :
    Recip2 (mu * dy) (eta * dx) (dx * dy) (sc2 ex mu eta dx dy sig) := by
  rintro q ⟨e1, e2⟩ q' ⟨f1, f2⟩
  unfold sc2
  dsimp only
  split
  · generalize ex (-(sig * (dx / mu))) = A
    field_simp
    ring
  · generalize ex (-(sig * (dy / eta))) = A
    field_simp
    ring

theorem recip_dd3 (mu eta xi dx dy dz sig : K) (hdx : dx ≠ 0) (hdy : dy ≠ 0) (hdz : dz ≠ 0)
    (hc : sig + 2 * mu / dx + 2 * eta / dy + 2 * xi / dz ≠ 0) :
    Recip3 (mu * (dy * dz)) (eta * (dx * dz)) (xi * (dx * dy)) (dx * dy * dz) (dd3 mu eta xi dx dy dz sig) := by
  intro q e q' e'
  have key : ∀ q e, (sig + 2 * mu / dx + 2 * eta / dy + 2 * xi / dz) * (dd3 mu eta xi dx dy dz sig q e).1 =
      q + 2 * mu / dx * e.1 + 2 * eta / dy * e.2.1 + 2 * xi / dz * e.2.2 := fun q e => by
    unfold dd3
    dsimp only
    rw [← mul_assoc, mul_one_div_cancel hc, one_mul]
  have h2 : ∀ q e, (dd3 mu eta xi dx dy dz sig q e).2 =
      (2 * (dd3 mu eta xi dx dy dz sig q e).1 - e.1, 2 * (dd3 mu eta xi dx dy dz sig q e).1 - e.2.1,
        2 * (dd3 mu eta xi dx dy dz sig q e).1 - e.2.2) := fun _ _ => rfl
  have k1 := key q e
  have k2 := key q' e'
  rw [h2, h2]
  generalize (dd3 mu eta xi dx dy dz sig q e).1 = c at *
  generalize (dd3 mu eta xi dx dy dz sig q' e').1 = c' at *
  have hx : dx * dy * dz * (2 * mu / dx) = 2 * (mu * (dy * dz)) := by field_simp
  have hy : dx * dy * dz * (2 * eta / dy) = 2 * (eta * (dx * dz)) := by field_simp
  have hz : dx * dy * dz * (2 * xi / dz) = 2 * (xi * (dx * dy)) := by field_simp
  dsimp only
  linear_combination dx * dy * dz * c * k2 - dx * dy * dz * c' * k1 + (c * e'.1 - c' * e.1) * hx +
    (c * e'.2.1 - c' * e.2.1) * hy + (c * e'.2.2 - c' * e.2.2) * hz

/-! ## Opposite octants -/

/-- The octant of the opposite directions. -/
def rev (dim o : Nat) : Nat :=
  ((List.range (2 ^ dim)).find? fun o' => decide (∀ d < dim, octantSign o' d = - octantSign o d)).getD 0

theorem rev_facts (dim : Nat) (h1 : 1 ≤ dim) (h3 : dim ≤ 3) (o : Nat) (ho : o < 2 ^ dim) :
    rev dim o < 2 ^ dim ∧ rev dim (rev dim o) = o ∧ (∀ d < dim, octantSign (rev dim o) d = - octantSign o d) ∧
      (∀ d < dim, entry (rev dim o) d = exit o d ∧ exit (rev dim o) d = entry o d) ∧
      ∀ s < 2 * dim, (Enters s (rev dim o) ↔ ¬ Enters s o) ∧ rev dim (mir dim s o) = mir dim s (rev dim o) := by
  have k : ∀ o < 2 ^ dim, rev dim o < 2 ^ dim ∧ rev dim (rev dim o) = o ∧
      (∀ d < dim, octantSign (rev dim o) d = - octantSign o d) ∧
      (∀ d < dim, entry (rev dim o) d = exit o d ∧ exit (rev dim o) d = entry o d) ∧
      ∀ s < 2 * dim, (Enters s (rev dim o) ↔ ¬ Enters s o) ∧ rev dim (mir dim s o) = mir dim s (rev dim o) := by
    interval_cases dim <;> decide +kernel
  exact k o ho

theorem sum_rev (dim : Nat) (h1 : 1 ≤ dim) (h3 : dim ≤ 3) (f : Nat → K) :
    ∑ o ∈ range (2 ^ dim), f (rev dim o) = ∑ o ∈ range (2 ^ dim), f o := by
  refine sum_nbij' (rev dim) (rev dim) ?_ ?_ ?_ ?_ ?_
  · intro o ho; exact mem_range.2 (rev_facts dim h1 h3 o (mem_range.1 ho)).1
  · intro o ho; exact mem_range.2 (rev_facts dim h1 h3 o (mem_range.1 ho)).1
  · intro o ho; exact (rev_facts dim h1 h3 o (mem_range.1 ho)).2.1
  · intro o ho; exact (rev_facts dim h1 h3 o (mem_range.1 ho)).2.1
  · intro o _; rfl

theorem posn_rev {dim : Nat} (h1 : 1 ≤ dim) (h3 : dim ≤ 3) {o : Nat} (ho : o < 2 ^ dim) {d : Nat} (hd : d < dim) (n p : Nat)
    (hp : p < n) : posn n (rev dim o) d (n - 1 - p) = posn n o d p := by
  have hs := (rev_facts dim h1 h3 o ho).2.2.1 d hd
  have hn : ∀ o < 2 ^ dim, ∀ d < dim, octantSign o d = 1 ∨ octantSign o d = -1 := by
    interval_cases dim <;> decide +kernel
  unfold posn
  rw [hs]
  rcases hn o ho d hd with h | h <;> rw [h] <;> simp <;> omega

/-! ## Whole sweeps -/

/-- A sweep and the opposite one.  `V`: volumes, `fw`: weights of face entries. -/
def Reciprocal {F : Type} (P : Prob F K) (Sol : (Nat → K) → Nat → Nat → (Nat → F) → (Nat → K) → Prop)
    (V : Nat → K) (fw : Nat → Nat → Nat → Nat → K) : Prop :=
  ∀ q q' o a b b' p p', o < 2 ^ P.dim → a < P.na → Sol q o a b p → Sol q' (rev P.dim o) a b' p' →
    ∑ c ∈ range P.N, V c * (q c * p' c - q' c * p c) =
      ∑ s ∈ range (2 * P.dim), (if Enters s o then 0 else faceDot P fw s a (b s) (b' s)) -
      ∑ s ∈ range (2 * P.dim), (if Enters s o then faceDot P fw s a (b s) (b' s) else 0)

theorem reciprocal1 (sch : Nat → Nat → K → K → K × K) (w : Nat → K) (nx na : Nat) (up : Bool) (bc : Nat → BC K)
    (order : List Nat) (scat fixed mtod disc) (V f : Nat → K)
    (hc : ∀ a < na, ∀ i < nx, Recip1 (f a) (V i) (sch a i)) :
    Reciprocal (prob1 sch w nx na up bc order scat fixed mtod disc)
      (fun q o a b p => Solves1 nx (fun i => sch a i (q i)) o b p) V (fun _ a _ _ => f a) := by
  rintro q q' o a b b' p p' ho ha ⟨E, e1, e2, e3⟩ ⟨X, x1, x2, x3⟩
  have ho' : o < 2 ^ 1 := ho
  have ha' : a < na := ha
  change ∑ c ∈ range nx, _ = ∑ s ∈ range (2 * 1), _ - ∑ s ∈ range (2 * 1), _
  rw [(sum_entered 1 (by decide) (by decide) o ho' _).1, (sum_entered 1 (by decide) (by decide) o ho' _).2]
  have hfs : ∀ side < 2, ∀ v v' : K, faceDot (prob1 sch w nx na up bc order scat fixed mtod disc)
      (fun _ a _ _ => f a) side a v v' = f a * (v * v') := by
    intro side hs v v'
    unfold faceDot
    have : ∀ k, faceCells 1 side (fun _ => nx) k = 1 := by
      intro k
      interval_cases side <;> simp [faceCells, List.range, List.range.loop, List.filter]
    change ∑ i ∈ range (faceCells 1 side (fun _ => nx) 0), ∑ j ∈ range (faceCells 1 side (fun _ => nx) 1), _ = _
    rw [this, this]
    simp [prob1]
  obtain ⟨y1, y2, _⟩ := entry_facts 1 (by decide) (by decide) o ho' 0 (by decide)
  obtain ⟨_, _, _, rd, _⟩ := rev_facts 1 (by decide) (by decide) o ho'
  have x1 : X 0 = b' (entry (rev 1 o) 0) := x1
  have x2 : b' (exit (rev 1 o) 0) = X nx := x2
  rw [(rd 0 (by decide)).1] at x1
  rw [(rd 0 (by decide)).2] at x2
  rw [sum_range_one, sum_range_one, hfs _ y2, hfs _ y1, ← e1, e2, ← x1, x2,
    ← sum_posn nx o 0 (fun c => V c * (q c * p' c - q' c * p c))]
  have key : ∀ t ∈ range nx, V (posn nx o 0 t) * (q (posn nx o 0 t) * p' (posn nx o 0 t) -
      q' (posn nx o 0 t) * p (posn nx o 0 t)) =
      f a * (E (t + 1) * X (nx - (t + 1))) - f a * (E t * X (nx - t)) := by
    intro t ht
    have ht := mem_range.1 ht
    have h2 := hc a ha' (posn nx o 0 t) (posn_lt ht) (q (posn nx o 0 t)) (E t) (q' (posn nx o 0 t)) (X (nx - (t + 1)))
    have h3 := e3 t ht
    have h4 : (fun i => sch a i (q' i)) (posn nx (rev 1 o) 0 (nx - 1 - t)) (X (nx - 1 - t)) =
      (p' (posn nx (rev 1 o) 0 (nx - 1 - t)), X (nx - 1 - t + 1)) := x3 (nx - 1 - t) (by omega)
    rw [posn_rev (by decide) (by decide) ho' (by decide) nx t ht, show nx - 1 - t = nx - (t + 1) by omega,
      show nx - (t + 1) + 1 = nx - t by omega] at h4
    dsimp only at h3 h4
    rw [h3, h4] at h2
    dsimp only at h2
    linear_combination h2
  rw [sum_congr rfl key, sum_range_sub (fun t => f a * (E t * X (nx - t)))]
  simp

/-- The opposite sweep, with its edges numbered along `o`. -/
theorem solves2_rev {nx ny : Nat} {sch : Nat → Nat → K × K → K × (K × K)} {o : Nat} (ho : o < 2 ^ 2)
    {b : Nat → Nat → K} {p : Nat → K} (h : Solves2 nx ny sch (rev 2 o) b p) : ∃ X Y : Nat → Nat → K,
    (∀ t < ny, X 0 t = b (entry o 0) (posn ny o 1 t) ∧ b (exit o 0) (posn ny o 1 t) = X nx t) ∧
    (∀ i < nx, Y i 0 = b (entry o 1) (posn nx o 0 i) ∧ b (exit o 1) (posn nx o 0 i) = Y i ny) ∧
    ∀ i < nx, ∀ t < ny, sch (posn nx o 0 i) (posn ny o 1 t) (X (i + 1) t, Y i (t + 1)) =
      (p (posn nx o 0 i + posn ny o 1 t * nx), (X i t, Y i t)) := by
  obtain ⟨X, Y, x1, x2, x3⟩ := h
  obtain ⟨_, _, _, rd, _⟩ := rev_facts 2 (by decide) (by decide) o ho
  have px : ∀ i < nx, posn nx (rev 2 o) 0 (nx - 1 - i) = posn nx o 0 i := fun i hi =>
    posn_rev (by decide) (by decide) ho (by decide) nx i hi
  have py : ∀ i < ny, posn ny (rev 2 o) 1 (ny - 1 - i) = posn ny o 1 i := fun i hi =>
    posn_rev (by decide) (by decide) ho (by decide) ny i hi
  rw [(rd 0 (by decide)).1, (rd 0 (by decide)).2] at x1
  rw [(rd 1 (by decide)).1, (rd 1 (by decide)).2] at x2
  refine ⟨fun i t => X (nx - i) (ny - 1 - t), fun i t => Y (nx - 1 - i) (ny - t), ?_, ?_, ?_⟩
  · intro t ht
    have h := x1 (ny - 1 - t) (by omega)
    rw [py t ht] at h
    exact ⟨h.2.symm, by dsimp only; rw [← h.1, Nat.sub_self]⟩
  · intro i hi
    have h := x2 (nx - 1 - i) (by omega)
    rw [px i hi] at h
    exact ⟨h.2.symm, by dsimp only; rw [← h.1, Nat.sub_self]⟩
  · intro i hi t ht
    have h := x3 (nx - 1 - i) (by omega) (ny - 1 - t) (by omega)
    rw [px i hi, py t ht, show nx - 1 - i + 1 = nx - i by omega, show ny - 1 - t + 1 = ny - t by omega] at h
    dsimp only
    rw [show nx - (i + 1) = nx - 1 - i by omega, show ny - (t + 1) = ny - 1 - t by omega]
    exact h

theorem reciprocal2 (sch : Nat → Nat → Nat → K → K × K → K × (K × K)) (w : Nat → K) (nx ny na : Nat) (up : Bool)
    (bc : Nat → BC (Nat → K)) (order : List Nat) (scat fixed mtod disc) (V : Nat → K) (fx fy : Nat → Nat → K)
    (hc : ∀ a < na, ∀ i < nx, ∀ j < ny, Recip2 (fx a j) (fy a i) (V (i + j * nx)) (sch a i j)) :
    Reciprocal (prob2 sch w nx ny na up bc order scat fixed mtod disc)
      (fun q o a b p => Solves2 nx ny (fun i j => sch a i j (q (i + j * nx))) o b p) V
      (fun side a i _ => if side < 2 then fx a i else fy a i) := by
  rintro q q' o a b b' p p' ho ha ⟨E, H, e1, e2, e3⟩ hX
  have ho' : o < 2 ^ 2 := ho
  have ha' : a < na := ha
  obtain ⟨X, Y, f1, f2, f3⟩ := solves2_rev ho' hX
  change ∑ c ∈ range (nx * ny), _ = ∑ s ∈ range (2 * 2), _ - ∑ s ∈ range (2 * 2), _
  rw [(sum_entered 2 (by decide) (by decide) o ho' _).1, (sum_entered 2 (by decide) (by decide) o ho' _).2]
  have hfs : ∀ side < 4, ∀ v v' : Nat → K, faceDot (prob2 sch w nx ny na up bc order scat fixed mtod disc)
      (fun side a i _ => if side < 2 then fx a i else fy a i) side a v v' =
      if side < 2 then ∑ i ∈ range ny, fx a i * (v i * v' i) else ∑ i ∈ range nx, fy a i * (v i * v' i) := by
    intro side hs v v'
    unfold faceDot
    interval_cases side <;> simp [prob2, faceCells, List.range, List.range.loop, List.filter]
  obtain ⟨x1, x2, _, _, x5, x6⟩ := entry_facts 2 (by decide) (by decide) o ho' 0 (by decide)
  obtain ⟨y1, y2, _, _, y5, y6⟩ := entry_facts 2 (by decide) (by decide) o ho' 1 (by decide)
  simp only [sum_range_succ, sum_range_zero, zero_add]
  rw [hfs _ x1, hfs _ x2, hfs _ y1, hfs _ y2, if_pos (by omega : entry o 0 < 2),
    if_pos (by omega : exit o 0 < 2), if_neg (by omega : ¬ entry o 1 < 2), if_neg (by omega : ¬ exit o 1 < 2)]
  simp only [sum_cells2]
  rw [← sum_posn ny o 1 (fun i => fx a i * (b (exit o 0) i * b' (exit o 0) i)),
    ← sum_posn ny o 1 (fun i => fx a i * (b (entry o 0) i * b' (entry o 0) i)),
    ← sum_posn nx o 0 (fun i => fy a i * (b (exit o 1) i * b' (exit o 1) i)),
    ← sum_posn nx o 0 (fun i => fy a i * (b (entry o 1) i * b' (entry o 1) i)),
    ← sum_posn ny o 1 (fun j => ∑ i ∈ range nx, V (i + j * nx) *
      (q (i + j * nx) * p' (i + j * nx) - q' (i + j * nx) * p (i + j * nx)))]
  have c1 : ∑ t ∈ range ny, fx a (posn ny o 1 t) * (b (exit o 0) (posn ny o 1 t) * b' (exit o 0) (posn ny o 1 t)) -
      ∑ t ∈ range ny, fx a (posn ny o 1 t) * (b (entry o 0) (posn ny o 1 t) * b' (entry o 0) (posn ny o 1 t)) =
      ∑ t ∈ range ny, ∑ i ∈ range nx,
        (fx a (posn ny o 1 t) * (E (i + 1) t * X (i + 1) t) - fx a (posn ny o 1 t) * (E i t * X i t)) := by
    rw [← sum_sub_distrib]
    refine sum_congr rfl fun t ht => ?_
    have ht := mem_range.1 ht
    rw [sum_range_sub (fun i => fx a (posn ny o 1 t) * (E i t * X i t)), (e1 t ht).2, ← (e1 t ht).1, (f1 t ht).2,
      (f1 t ht).1]
  have c2 : ∑ i ∈ range nx, fy a (posn nx o 0 i) * (b (exit o 1) (posn nx o 0 i) * b' (exit o 1) (posn nx o 0 i)) -
      ∑ i ∈ range nx, fy a (posn nx o 0 i) * (b (entry o 1) (posn nx o 0 i) * b' (entry o 1) (posn nx o 0 i)) =
      ∑ t ∈ range ny, ∑ i ∈ range nx,
        (fy a (posn nx o 0 i) * (H i (t + 1) * Y i (t + 1)) - fy a (posn nx o 0 i) * (H i t * Y i t)) := by
    rw [← sum_sub_distrib, sum_comm (s := range ny)]
    refine sum_congr rfl fun i hi => ?_
    have hi := mem_range.1 hi
    rw [sum_range_sub (fun t => fy a (posn nx o 0 i) * (H i t * Y i t)), (e2 i hi).2, ← (e2 i hi).1, (f2 i hi).2,
      (f2 i hi).1]
  rw [add_sub_add_comm, c1, c2, ← sum_add_distrib]
  refine sum_congr rfl fun t ht => ?_
  rw [← sum_add_distrib, ← sum_posn nx o 0 (fun i => V (i + posn ny o 1 t * nx) *
      (q (i + posn ny o 1 t * nx) * p' (i + posn ny o 1 t * nx) - q' (i + posn ny o 1 t * nx) * p (i + posn ny o 1 t * nx)))]
  refine sum_congr rfl fun i hi => ?_
  have ht := mem_range.1 ht
  have hi := mem_range.1 hi
  have h2 := hc a ha' (posn nx o 0 i) (posn_lt hi) (posn ny o 1 t) (posn_lt ht)
    (q (posn nx o 0 i + posn ny o 1 t * nx)) (E i t, H i t) (q' (posn nx o 0 i + posn ny o 1 t * nx))
    (X (i + 1) t, Y i (t + 1))
  have h3 := e3 i hi t ht
  have h4 := f3 i hi t ht
  dsimp only at h3 h4
  rw [h3, h4] at h2
  dsimp only at h2
  linear_combination h2

theorem solves3_rev {nx ny nz : Nat} {sch : Nat → Nat → Nat → K × K × K → K × (K × K × K)} {o : Nat} (ho : o < 2 ^ 3)
    {b : Nat → Nat → Nat → K} {p : Nat → K} (h : Solves3 nx ny nz sch (rev 3 o) b p) :
    ∃ X Y W : Nat → Nat → Nat → K,
    (∀ t < ny, ∀ k < nz, X 0 t k = b (entry o 0) (posn nz o 2 k) (posn ny o 1 t) ∧
      b (exit o 0) (posn nz o 2 k) (posn ny o 1 t) = X nx t k) ∧
    (∀ i < nx, ∀ k < nz, Y i 0 k = b (entry o 1) (posn nz o 2 k) (posn nx o 0 i) ∧
      b (exit o 1) (posn nz o 2 k) (posn nx o 0 i) = Y i ny k) ∧
    (∀ i < nx, ∀ t < ny, W i t 0 = b (entry o 2) (posn ny o 1 t) (posn nx o 0 i) ∧
      b (exit o 2) (posn ny o 1 t) (posn nx o 0 i) = W i t nz) ∧
    ∀ i < nx, ∀ t < ny, ∀ k < nz, sch (posn nx o 0 i) (posn ny o 1 t) (posn nz o 2 k)
      (X (i + 1) t k, Y i (t + 1) k, W i t (k + 1)) =
      (p (posn nx o 0 i + posn ny o 1 t * nx + posn nz o 2 k * nx * ny), (X i t k, Y i t k, W i t k)) := by
  obtain ⟨X, Y, W, x1, x2, x3, x4⟩ := h
  obtain ⟨_, _, _, rd, _⟩ := rev_facts 3 (by decide) (by decide) o ho
  have px : ∀ i < nx, posn nx (rev 3 o) 0 (nx - 1 - i) = posn nx o 0 i := fun i hi =>
    posn_rev (by decide) (by decide) ho (by decide) nx i hi
  have py : ∀ i < ny, posn ny (rev 3 o) 1 (ny - 1 - i) = posn ny o 1 i := fun i hi =>
    posn_rev (by decide) (by decide) ho (by decide) ny i hi
  have pz : ∀ i < nz, posn nz (rev 3 o) 2 (nz - 1 - i) = posn nz o 2 i := fun i hi =>
    posn_rev (by decide) (by decide) ho (by decide) nz i hi
  rw [(rd 0 (by decide)).1, (rd 0 (by decide)).2] at x1
  rw [(rd 1 (by decide)).1, (rd 1 (by decide)).2] at x2
  rw [(rd 2 (by decide)).1, (rd 2 (by decide)).2] at x3
  refine ⟨fun i t k => X (nx - i) (ny - 1 - t) (nz - 1 - k), fun i t k => Y (nx - 1 - i) (ny - t) (nz - 1 - k),
    fun i t k => W (nx - 1 - i) (ny - 1 - t) (nz - k), ?_, ?_, ?_, ?_⟩
  · intro t ht k hk
    have h := x1 (ny - 1 - t) (by omega) (nz - 1 - k) (by omega)
    rw [py t ht, pz k hk] at h
    exact ⟨h.2.symm, by dsimp only; rw [← h.1, Nat.sub_self]⟩
  · intro i hi k hk
    have h := x2 (nx - 1 - i) (by omega) (nz - 1 - k) (by omega)
    rw [px i hi, pz k hk] at h
    exact ⟨h.2.symm, by dsimp only; rw [← h.1, Nat.sub_self]⟩
  · intro i hi t ht
    have h := x3 (nx - 1 - i) (by omega) (ny - 1 - t) (by omega)
    rw [px i hi, py t ht] at h
    exact ⟨h.2.symm, by dsimp only; rw [← h.1, Nat.sub_self]⟩
  · intro i hi t ht k hk
    have h := x4 (nx - 1 - i) (by omega) (ny - 1 - t) (by omega) (nz - 1 - k) (by omega)
    rw [px i hi, py t ht, pz k hk, show nx - 1 - i + 1 = nx - i by omega, show ny - 1 - t + 1 = ny - t by omega,
      show nz - 1 - k + 1 = nz - k by omega] at h
    dsimp only
    rw [show nx - (i + 1) = nx - 1 - i by omega, show ny - (t + 1) = ny - 1 - t by omega,
      show nz - (k + 1) = nz - 1 - k by omega]
    exact h

theorem reciprocal3 (sch : Nat → Nat → Nat → Nat → K → K × K × K → K × (K × K × K)) (w : Nat → K)
    (nx ny nz na : Nat) (up : Bool) (bc : Nat → BC (Nat → Nat → K)) (order : List Nat) (scat fixed mtod disc)
    (V : Nat → K) (fx fy fz : Nat → Nat → Nat → K)
    (hc : ∀ a < na, ∀ i < nx, ∀ j < ny, ∀ k < nz, Recip3 (fx a k j) (fy a k i) (fz a j i)
      (V (i + j * nx + k * nx * ny)) (sch a i j k)) :
    Reciprocal (prob3 sch w nx ny nz na up bc order scat fixed mtod disc)
      (fun q o a b p => Solves3 nx ny nz (fun i j k => sch a i j k (q (i + j * nx + k * nx * ny))) o b p) V
      (fun side a i j => if side < 2 then fx a i j else if side < 4 then fy a i j else fz a i j) := by
  rintro q q' o a b b' p p' ho ha ⟨E, H, Z, e1, e2, e3, e4⟩ hX
  have ho' : o < 2 ^ 3 := ho
  have ha' : a < na := ha
  obtain ⟨X, Y, W, f1, f2, f3, f4⟩ := solves3_rev ho' hX
  change ∑ c ∈ range (nx * ny * nz), _ = ∑ s ∈ range (2 * 3), _ - ∑ s ∈ range (2 * 3), _
  rw [(sum_entered 3 (by decide) (by decide) o ho' _).1, (sum_entered 3 (by decide) (by decide) o ho' _).2]
  have hfs : ∀ side < 6, ∀ v v' : Nat → Nat → K, faceDot (prob3 sch w nx ny nz na up bc order scat fixed mtod disc)
      (fun side a i j => if side < 2 then fx a i j else if side < 4 then fy a i j else fz a i j) side a v v' =
      if side < 2 then ∑ k ∈ range nz, ∑ j ∈ range ny, fx a k j * (v k j * v' k j)
      else if side < 4 then ∑ k ∈ range nz, ∑ i ∈ range nx, fy a k i * (v k i * v' k i)
      else ∑ j ∈ range ny, ∑ i ∈ range nx, fz a j i * (v j i * v' j i) := by
    intro side hs v v'
    unfold faceDot
    interval_cases side <;> simp [prob3, faceCells, List.range, List.range.loop, List.filter]
  obtain ⟨x1, x2, _, _, x5, x6⟩ := entry_facts 3 (by decide) (by decide) o ho' 0 (by decide)
  obtain ⟨y1, y2, _, _, y5, y6⟩ := entry_facts 3 (by decide) (by decide) o ho' 1 (by decide)
  obtain ⟨z1, z2, _, _, z5, z6⟩ := entry_facts 3 (by decide) (by decide) o ho' 2 (by decide)
  simp only [sum_range_succ, sum_range_zero, zero_add]
  rw [hfs _ x1, hfs _ x2, hfs _ y1, hfs _ y2, hfs _ z1, hfs _ z2, if_pos (by omega : entry o 0 < 2),
    if_pos (by omega : exit o 0 < 2), if_neg (by omega : ¬ entry o 1 < 2), if_neg (by omega : ¬ exit o 1 < 2),
    if_neg (by omega : ¬ entry o 2 < 2), if_neg (by omega : ¬ exit o 2 < 2), if_pos (by omega : entry o 1 < 4),
    if_pos (by omega : exit o 1 < 4), if_neg (by omega : ¬ entry o 2 < 4), if_neg (by omega : ¬ exit o 2 < 4)]
  simp only [sum_cells3]
  have r2 : ∀ (n d n' d' : Nat) (g : Nat → Nat → K), ∑ s ∈ range n, ∑ t ∈ range n', g s t =
      ∑ s ∈ range n, ∑ t ∈ range n', g (posn n o d s) (posn n' o d' t) := by
    intro n d n' d' g
    rw [← sum_posn n o d (fun s => ∑ t ∈ range n', g s t)]
    exact sum_congr rfl fun s _ => (sum_posn n' o d' (fun t => g (posn n o d s) t)).symm
  have r3 : ∀ (g : Nat → Nat → Nat → K), ∑ k ∈ range nz, ∑ j ∈ range ny, ∑ i ∈ range nx, g i j k =
      ∑ k ∈ range nz, ∑ j ∈ range ny, ∑ i ∈ range nx, g (posn nx o 0 i) (posn ny o 1 j) (posn nz o 2 k) := by
    intro g
    rw [r2 nz 2 ny 1 (fun k j => ∑ i ∈ range nx, g i j k)]
    exact sum_congr rfl fun k _ => sum_congr rfl fun j _ =>
      (sum_posn nx o 0 (fun i => g i (posn ny o 1 j) (posn nz o 2 k))).symm
  rw [r2 nz 2 ny 1 (fun k j => fx a k j * (b (exit o 0) k j * b' (exit o 0) k j)),
    r2 nz 2 ny 1 (fun k j => fx a k j * (b (entry o 0) k j * b' (entry o 0) k j)),
    r2 nz 2 nx 0 (fun k i => fy a k i * (b (exit o 1) k i * b' (exit o 1) k i)),
    r2 nz 2 nx 0 (fun k i => fy a k i * (b (entry o 1) k i * b' (entry o 1) k i)),
    r2 ny 1 nx 0 (fun j i => fz a j i * (b (exit o 2) j i * b' (exit o 2) j i)),
    r2 ny 1 nx 0 (fun j i => fz a j i * (b (entry o 2) j i * b' (entry o 2) j i)),
    r3 (fun i j k => V (i + j * nx + k * nx * ny) * (q (i + j * nx + k * nx * ny) * p' (i + j * nx + k * nx * ny) -
      q' (i + j * nx + k * nx * ny) * p (i + j * nx + k * nx * ny)))]
  have c1 : ∑ k ∈ range nz, ∑ j ∈ range ny, fx a (posn nz o 2 k) (posn ny o 1 j) *
        (b (exit o 0) (posn nz o 2 k) (posn ny o 1 j) * b' (exit o 0) (posn nz o 2 k) (posn ny o 1 j)) -
      ∑ k ∈ range nz, ∑ j ∈ range ny, fx a (posn nz o 2 k) (posn ny o 1 j) *
        (b (entry o 0) (posn nz o 2 k) (posn ny o 1 j) * b' (entry o 0) (posn nz o 2 k) (posn ny o 1 j)) =
      ∑ k ∈ range nz, ∑ j ∈ range ny, ∑ i ∈ range nx,
        (fx a (posn nz o 2 k) (posn ny o 1 j) * (E (i + 1) j k * X (i + 1) j k) -
          fx a (posn nz o 2 k) (posn ny o 1 j) * (E i j k * X i j k)) := by
    rw [← sum_sub_distrib]
    refine sum_congr rfl fun k hk => ?_
    rw [← sum_sub_distrib]
    refine sum_congr rfl fun j hj => ?_
    have hk := mem_range.1 hk
    have hj := mem_range.1 hj
    rw [sum_range_sub (fun i => fx a (posn nz o 2 k) (posn ny o 1 j) * (E i j k * X i j k)),
      (e1 j hj k hk).2, ← (e1 j hj k hk).1, (f1 j hj k hk).2, (f1 j hj k hk).1]
  have c2 : ∑ k ∈ range nz, ∑ i ∈ range nx, fy a (posn nz o 2 k) (posn nx o 0 i) *
        (b (exit o 1) (posn nz o 2 k) (posn nx o 0 i) * b' (exit o 1) (posn nz o 2 k) (posn nx o 0 i)) -
      ∑ k ∈ range nz, ∑ i ∈ range nx, fy a (posn nz o 2 k) (posn nx o 0 i) *
        (b (entry o 1) (posn nz o 2 k) (posn nx o 0 i) * b' (entry o 1) (posn nz o 2 k) (posn nx o 0 i)) =
      ∑ k ∈ range nz, ∑ j ∈ range ny, ∑ i ∈ range nx,
        (fy a (posn nz o 2 k) (posn nx o 0 i) * (H i (j + 1) k * Y i (j + 1) k) -
          fy a (posn nz o 2 k) (posn nx o 0 i) * (H i j k * Y i j k)) := by
    rw [← sum_sub_distrib]
    refine sum_congr rfl fun k hk => ?_
    rw [← sum_sub_distrib, sum_comm (s := range ny)]
    refine sum_congr rfl fun i hi => ?_
    have hk := mem_range.1 hk
    have hi := mem_range.1 hi
    rw [sum_range_sub (fun j => fy a (posn nz o 2 k) (posn nx o 0 i) * (H i j k * Y i j k)),
      (e2 i hi k hk).2, ← (e2 i hi k hk).1, (f2 i hi k hk).2, (f2 i hi k hk).1]
  have c3 : ∑ j ∈ range ny, ∑ i ∈ range nx, fz a (posn ny o 1 j) (posn nx o 0 i) *
        (b (exit o 2) (posn ny o 1 j) (posn nx o 0 i) * b' (exit o 2) (posn ny o 1 j) (posn nx o 0 i)) -
      ∑ j ∈ range ny, ∑ i ∈ range nx, fz a (posn ny o 1 j) (posn nx o 0 i) *
        (b (entry o 2) (posn ny o 1 j) (posn nx o 0 i) * b' (entry o 2) (posn ny o 1 j) (posn nx o 0 i)) =
      ∑ k ∈ range nz, ∑ j ∈ range ny, ∑ i ∈ range nx,
        (fz a (posn ny o 1 j) (posn nx o 0 i) * (Z i j (k + 1) * W i j (k + 1)) -
          fz a (posn ny o 1 j) (posn nx o 0 i) * (Z i j k * W i j k)) := by
    rw [← sum_sub_distrib, sum_comm (s := range nz)]
    refine sum_congr rfl fun j hj => ?_
    rw [← sum_sub_distrib, sum_comm (s := range nz)]
    refine sum_congr rfl fun i hi => ?_
    have hj := mem_range.1 hj
    have hi := mem_range.1 hi
    rw [sum_range_sub (fun k => fz a (posn ny o 1 j) (posn nx o 0 i) * (Z i j k * W i j k)),
      (e3 i hi j hj).2, ← (e3 i hi j hj).1, (f3 i hi j hj).2, (f3 i hi j hj).1]
  rw [add_sub_add_comm, add_sub_add_comm, c1, c2, c3, ← sum_add_distrib, ← sum_add_distrib]
  refine sum_congr rfl fun k hk => ?_
  rw [← sum_add_distrib, ← sum_add_distrib]
  refine sum_congr rfl fun j hj => ?_
  rw [← sum_add_distrib, ← sum_add_distrib]
  refine sum_congr rfl fun i hi => ?_
  have hk := mem_range.1 hk
  have hj := mem_range.1 hj
  have hi := mem_range.1 hi
  have h2 := hc a ha' (posn nx o 0 i) (posn_lt hi) (posn ny o 1 j) (posn_lt hj) (posn nz o 2 k) (posn_lt hk)
    (q (posn nx o 0 i + posn ny o 1 j * nx + posn nz o 2 k * nx * ny)) (E i j k, H i j k, Z i j k)
    (q' (posn nx o 0 i + posn ny o 1 j * nx + posn nz o 2 k * nx * ny)) (X (i + 1) j k, Y i (j + 1) k, W i j (k + 1))
  have h3 := e4 i hi j hj k hk
  have h4 := f4 i hi j hj k hk
  dsimp only at h3 h4
  rw [h3, h4] at h2
  dsimp only at h2
  linear_combination h2

end Detran.WGReflect
