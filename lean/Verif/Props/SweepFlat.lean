import Verif.Props.SweepSign

/-!
# Flat solutions of sweeps (C63)

An infinite homogeneous medium has a flat angular flux `c` when the emission density is
`sigt * c`.  The discrete equations should reproduce it cell by cell.
-/

namespace Detran.Sweep

open Detran.Solver Finset

variable {K : Type} [Field K]

/-- Every scheme maps a flat incident flux `c` with source `sigt * c` to the flat flux `c`. -/
theorem C63_schemes_flat [LE K] [DecidableLE K] (ex : K → K) (mu eta xi dx dy dz sigt c : K)
    (hmu : mu ≠ 0) (heta : eta ≠ 0) (hdx : dx ≠ 0) (hdy : dy ≠ 0) :
    (sigt + 2 * mu / dx ≠ 0 → dd1 mu dx sigt (sigt * c) c = (c, c)) ∧
    (sigt + mu / dx ≠ 0 → sd1 mu dx sigt (sigt * c) c = (c, c)) ∧
    (sigt ≠ 0 → sc1 ex mu dx sigt (sigt * c) c = (c, c)) ∧
    (sigt + 2 * mu / dx + 2 * eta / dy ≠ 0 →
      dd2 mu eta dx dy sigt (sigt * c) (c, c) = (c, (c, c))) ∧
    (sigt + mu / dx + eta / dy ≠ 0 → sd2 mu eta dx dy sigt (sigt * c) (c, c) = (c, (c, c))) ∧
    (sigt ≠ 0 → sc2 ex mu eta dx dy sigt (sigt * c) (c, c) = (c, (c, c))) ∧
    (sigt + 2 * mu / dx + 2 * eta / dy + 2 * xi / dz ≠ 0 →
      dd3 mu eta xi dx dy dz sigt (sigt * c) (c, c, c) = (c, (c, c, c))) := by
  refine ⟨?_, ?_, ?_, ?_, ?_, ?_, ?_⟩
  · intro h
    have : 1 / (sigt + 2 * mu / dx) * (sigt * c + 2 * mu / dx * c) = c := by
      rw [← add_mul, ← mul_assoc, one_div, inv_mul_cancel₀ h, one_mul]
    simp only [dd1, this]; ext <;> simp only []; ring
  · intro h
    have : 1 / (sigt + mu / dx) * (sigt * c + mu / dx * c) = c := by
      rw [← add_mul, ← mul_assoc, one_div, inv_mul_cancel₀ h, one_mul]
    simp only [sd1, this]
  · intro h
    simp only [sc1]
    generalize ex (-(sigt * dx / mu)) = A
    ext <;> simp only []
    · field_simp; ring
    · field_simp; ring
  · intro h
    have : 1 / (sigt + 2 * mu / dx + 2 * eta / dy) *
        (sigt * c + 2 * mu / dx * c + 2 * eta / dy * c) = c := by
      rw [← add_mul, ← add_mul, ← mul_assoc, one_div, inv_mul_cancel₀ h, one_mul]
    simp only [dd2, this]; ext <;> simp only [] <;> ring
  · intro h
    have : 1 / (sigt + mu / dx + eta / dy) * (sigt * c + mu / dx * c + eta / dy * c) = c := by
      rw [← add_mul, ← add_mul, ← mul_assoc, one_div, inv_mul_cancel₀ h, one_mul]
    simp only [sd2, this]
  · intro h
    have : sigt * c / sigt = c := by field_simp
    simp only [sc2, this]
    split_ifs <;> ext <;> simp
  · intro h
    have : 1 / (sigt + 2 * mu / dx + 2 * eta / dy + 2 * xi / dz) *
        (sigt * c + 2 * mu / dx * c + 2 * eta / dy * c + 2 * xi / dz * c) = c := by
      rw [← add_mul, ← add_mul, ← add_mul, ← mul_assoc, one_div, inv_mul_cancel₀ h, one_mul]
    simp only [dd3, this]; ext <;> simp only [] <;> ring

theorem posn_lt {n o d p : Nat} (hp : p < n) : posn n o d p < n := by
  unfold posn; split_ifs <;> omega

theorem posn_posn {n o d p : Nat} (hp : p < n) : posn n o d (posn n o d p) = p := by
  unfold posn; split_ifs <;> omega

/-- 1-D: a sweep whose incident fluxes all equal `c` and whose cells all map `c` to `c` leaves
    every angular flux and every outgoing boundary flux equal to `c`, and every scalar flux equal
    to `c` times the total weight. -/
theorem C63_flat_1D (eq : Nat → (Nat → K) → Nat → K → K × K) (src : Nat → Nat → Nat → K)
    (w : Nat → K) (nx na : Nat) (bup) (hb : OnlyIncident 1 bup) (order : List Nat)
    (hord : order.Perm (List.range 2)) (s : St K K) (c : K)
    (hflat : ∀ o < 2, ∀ a < na, ∀ i < nx, eq a (src o a) i c = (c, c)) :
    let s' := sweepWith order na (angle1 eq src w nx true bup) s
    (∀ o < 2, ∀ a < na, s'.bdy (entry o 0) o a = c) →
    (∀ o < 2, ∀ a < na, s'.bdy (exit o 0) o a = c ∧ ∀ i < nx, s'.psi o a i = c) ∧
    ∀ i < nx, s'.phi i = c * (2 * ∑ a ∈ range na, w a) := by
  intro s' hin
  obtain ⟨h1, h2⟩ := C28_sweep_solves_1D eq src w nx na bup hb order hord s
  have key : ∀ o < 2, ∀ a < na, s'.bdy (exit o 0) o a = c ∧ ∀ i < nx, s'.psi o a i = c := by
    intro o ho a ha
    obtain ⟨V, hV0, hVn, hV⟩ := h1 o ho a ha
    have hc : ∀ p ≤ nx, V p = c := by
      intro p
      induction p with
      | zero => intro _; rw [hV0]; exact hin o ho a ha
      | succ p ih =>
          intro hp
          have := hV p hp
          rw [ih (by omega), hflat o ho a ha _ (posn_lt hp)] at this
          exact (Prod.mk.inj this).2.symm
    refine ⟨hVn.trans (hc nx (le_refl _)), fun i hi => ?_⟩
    have := hV (posn nx o 0 i) (posn_lt hi)
    rw [posn_posn hi, hc _ (posn_lt hi).le, hflat o ho a ha i hi] at this
    exact (Prod.mk.inj this).1.symm
  refine ⟨key, fun i hi => ?_⟩
  rw [h2 i hi, sum_range_succ, sum_range_one, two_mul, mul_add, mul_sum]
  congr 1 <;> refine sum_congr rfl fun a ha => ?_
  · rw [(key 0 (by omega) a (mem_range.1 ha)).2 i hi, mul_comm]
  · rw [(key 1 (by omega) a (mem_range.1 ha)).2 i hi, mul_comm]

/-- 2-D. -/
theorem C63_flat_2D (eq : Nat → (Nat → K) → Nat → Nat → K × K → K × (K × K))
    (src : Nat → Nat → Nat → K) (w : Nat → K) (nx ny na : Nat) (bup) (hb : OnlyIncident 2 bup)
    (order : List Nat) (hord : order.Perm (List.range 4)) (s : St (Nat → K) K) (c : K)
    (hflat : ∀ o < 4, ∀ a < na, ∀ i < nx, ∀ j < ny, eq a (src o a) i j (c, c) = (c, (c, c))) :
    let s' := sweepWith order na (angle2 eq src w nx ny true bup) s
    (∀ o < 4, ∀ a < na, (∀ j < ny, s'.bdy (entry o 0) o a j = c) ∧
      ∀ i < nx, s'.bdy (entry o 1) o a i = c) →
    (∀ o < 4, ∀ a < na, (∀ j < ny, s'.bdy (exit o 0) o a j = c) ∧
      (∀ i < nx, s'.bdy (exit o 1) o a i = c) ∧
      ∀ i < nx, ∀ j < ny, s'.psi o a (i + j * nx) = c) ∧
    ∀ i < nx, ∀ j < ny, s'.phi (i + j * nx) = c * (4 * ∑ a ∈ range na, w a) := by
  intro s' hin
  obtain ⟨h1, h2⟩ := C28_sweep_solves_2D eq src w nx ny na bup hb order hord s
  have key : ∀ o < 4, ∀ a < na, (∀ j < ny, s'.bdy (exit o 0) o a j = c) ∧
      (∀ i < nx, s'.bdy (exit o 1) o a i = c) ∧
      ∀ i < nx, ∀ j < ny, s'.psi o a (i + j * nx) = c := by
    intro o ho a ha
    obtain ⟨V, H, hV, hH, hc⟩ := h1 o ho a ha
    have step : ∀ p < nx, ∀ q < ny, V p q = c → H p q = c →
        s'.psi o a (posn nx o 0 p + posn ny o 1 q * nx) = c ∧ V (p + 1) q = c ∧
          H p (q + 1) = c := by
      intro p hp q hq e1 e2
      have := hc p hp q hq
      rw [e1, e2, hflat o ho a ha _ (posn_lt hp) _ (posn_lt hq)] at this
      obtain ⟨t1, t2⟩ := Prod.mk.inj this
      obtain ⟨t2, t3⟩ := Prod.mk.inj t2
      exact ⟨t1.symm, t2.symm, t3.symm⟩
    have all : ∀ q ≤ ny, (∀ p < nx, H p q = c) ∧ ∀ q' < q, ∀ p ≤ nx, V p q' = c := by
      intro q
      induction q with
      | zero =>
          intro _
          refine ⟨fun p hp => ?_, fun q' h => by omega⟩
          rw [(hH p hp).1]; exact (hin o ho a ha).2 _ (posn_lt hp)
      | succ q ih =>
          intro hq
          obtain ⟨iH, iV⟩ := ih (by omega)
          have hrow : ∀ p ≤ nx, V p q = c := by
            intro p
            induction p with
            | zero =>
                intro _
                rw [(hV q hq).1]; exact (hin o ho a ha).1 _ (posn_lt hq)
            | succ p ihp =>
                intro hp
                exact (step p hp q hq (ihp (by omega)) (iH p hp)).2.1
          refine ⟨fun p hp => (step p hp q hq (hrow p hp.le) (iH p hp)).2.2, fun q' hq' p hp => ?_⟩
          rcases Nat.lt_succ_iff_lt_or_eq.1 hq' with h | h
          · exact iV q' h p hp
          · subst h; exact hrow p hp
    obtain ⟨aH, aV⟩ := all ny (le_refl _)
    refine ⟨fun j hj => ?_, fun i hi => ?_, fun i hi j hj => ?_⟩
    · have := (hV _ (posn_lt (o := o) (d := 1) hj)).2
      rw [posn_posn hj] at this
      exact this.trans (aV _ (posn_lt hj) nx (le_refl _))
    · have := (hH _ (posn_lt (o := o) (d := 0) hi)).2
      rw [posn_posn hi] at this
      exact this.trans (aH _ (posn_lt hi))
    · have hp := posn_lt (o := o) (d := 0) hi
      have hq := posn_lt (o := o) (d := 1) hj
      have := (step _ hp _ hq (aV _ hq _ hp.le) ((all _ hq.le).1 _ hp)).1
      rwa [posn_posn hi, posn_posn hj] at this
  refine ⟨key, fun i hi j hj => ?_⟩
  rw [h2 _ (Detran.Mesh.idx_row_lt hi hj)]
  have : ∀ o ∈ range 4, ∑ a ∈ range na, w a * s'.psi o a (i + j * nx) = c * ∑ a ∈ range na, w a := by
    intro o ho
    rw [mul_sum]
    refine sum_congr rfl fun a ha => ?_
    rw [(key o (mem_range.1 ho) a (mem_range.1 ha)).2.2 i hi j hj, mul_comm]
  rw [sum_congr rfl this, sum_const, card_range, nsmul_eq_mul]
  push_cast; ring

/-- 3-D. -/
theorem C63_flat_3D (eq : Nat → (Nat → K) → Nat → Nat → Nat → K × K × K → K × (K × K × K))
    (src : Nat → Nat → Nat → K) (w : Nat → K) (nx ny nz na : Nat) (hfit : nx ≤ 2 ^ 32) (bup)
    (hb : OnlyIncident 3 bup) (order : List Nat) (hord : order.Perm (List.range 8))
    (s : St (Nat → Nat → K) K) (c : K)
    (hflat : ∀ o < 8, ∀ a < na, ∀ i < nx, ∀ j < ny, ∀ k < nz,
      eq a (src o a) i j k (c, c, c) = (c, (c, c, c))) :
    let s' := sweepWith order na (angle3 eq src w nx ny nz true bup) s
    (∀ o < 8, ∀ a < na, (∀ k < nz, ∀ j < ny, s'.bdy (entry o 0) o a k j = c) ∧
      (∀ k < nz, ∀ i < nx, s'.bdy (entry o 1) o a k i = c) ∧
      ∀ j < ny, ∀ i < nx, s'.bdy (entry o 2) o a j i = c) →
    (∀ o < 8, ∀ a < na, (∀ k < nz, ∀ j < ny, s'.bdy (exit o 0) o a k j = c) ∧
      (∀ k < nz, ∀ i < nx, s'.bdy (exit o 1) o a k i = c) ∧
      (∀ j < ny, ∀ i < nx, s'.bdy (exit o 2) o a j i = c) ∧
      ∀ i < nx, ∀ j < ny, ∀ k < nz, s'.psi o a (i + j * nx + k * nx * ny) = c) ∧
    ∀ i < nx, ∀ j < ny, ∀ k < nz,
      s'.phi (i + j * nx + k * nx * ny) = c * (8 * ∑ a ∈ range na, w a) := by
  intro s' hin
  obtain ⟨h1, h2⟩ := C28_sweep_solves_3D eq src w nx ny nz na hfit bup hb order hord s
  have key : ∀ o < 8, ∀ a < na, (∀ k < nz, ∀ j < ny, s'.bdy (exit o 0) o a k j = c) ∧
      (∀ k < nz, ∀ i < nx, s'.bdy (exit o 1) o a k i = c) ∧
      (∀ j < ny, ∀ i < nx, s'.bdy (exit o 2) o a j i = c) ∧
      ∀ i < nx, ∀ j < ny, ∀ k < nz, s'.psi o a (i + j * nx + k * nx * ny) = c := by
    intro o ho a ha
    obtain ⟨V, H, Z, hV, hH, hZ, hc⟩ := h1 o ho a ha
    obtain ⟨n1, n2, n3⟩ := hin o ho a ha
    have step : ∀ p < nx, ∀ q < ny, ∀ t < nz, V p q t = c → H p q t = c → Z p q t = c →
        s'.psi o a (posn nx o 0 p + posn ny o 1 q * nx + posn nz o 2 t * nx * ny) = c ∧
          V (p + 1) q t = c ∧ H p (q + 1) t = c ∧ Z p q (t + 1) = c := by
      intro p hp q hq t ht e1 e2 e3
      have := hc p hp q hq t ht
      rw [e1, e2, e3, hflat o ho a ha _ (posn_lt hp) _ (posn_lt hq) _ (posn_lt ht)] at this
      simp only [Prod.mk.injEq] at this
      exact ⟨this.1.symm, this.2.1.symm, this.2.2.1.symm, this.2.2.2.symm⟩
    have all : ∀ t ≤ nz, (∀ p < nx, ∀ q < ny, Z p q t = c) ∧
        ∀ t' < t, (∀ q < ny, ∀ p ≤ nx, V p q t' = c) ∧ ∀ p < nx, ∀ q ≤ ny, H p q t' = c := by
      intro t
      induction t with
      | zero =>
          intro _
          refine ⟨fun p hp q hq => ?_, fun t' h => by omega⟩
          rw [(hZ p hp q hq).1]; exact n3 _ (posn_lt hq) _ (posn_lt hp)
      | succ t ih =>
          intro ht
          obtain ⟨iZ, iVH⟩ := ih (by omega)
          have plane : ∀ q ≤ ny, (∀ p < nx, H p q t = c) ∧
              ∀ q' < q, (∀ p ≤ nx, V p q' t = c) := by
            intro q
            induction q with
            | zero =>
                intro _
                refine ⟨fun p hp => ?_, fun q' h => by omega⟩
                rw [(hH p hp t ht).1]; exact n2 _ (posn_lt ht) _ (posn_lt hp)
            | succ q ihq =>
                intro hq
                obtain ⟨iH, iV⟩ := ihq (by omega)
                have hrow : ∀ p ≤ nx, V p q t = c := by
                  intro p
                  induction p with
                  | zero =>
                      intro _
                      rw [(hV q hq t ht).1]; exact n1 _ (posn_lt ht) _ (posn_lt hq)
                  | succ p ihp =>
                      intro hp
                      exact (step p hp q hq t ht (ihp (by omega)) (iH p hp) (iZ p hp q hq)).2.1
                refine ⟨fun p hp =>
                  (step p hp q hq t ht (hrow p hp.le) (iH p hp) (iZ p hp q hq)).2.2.1,
                  fun q' hq' p hp => ?_⟩
                rcases Nat.lt_succ_iff_lt_or_eq.1 hq' with h | h
                · exact iV q' h p hp
                · subst h; exact hrow p hp
          refine ⟨fun p hp q hq => (step p hp q hq t ht ((plane ny (le_refl _)).2 q hq p hp.le)
            ((plane q hq.le).1 p hp) (iZ p hp q hq)).2.2.2, fun t' ht' => ?_⟩
          rcases Nat.lt_succ_iff_lt_or_eq.1 ht' with h | h
          · exact iVH t' h
          · subst h
            exact ⟨fun q hq p hp => (plane ny (le_refl _)).2 q hq p hp,
              fun p hp q hq => (plane q hq).1 p hp⟩
    obtain ⟨aZ, aVH⟩ := all nz (le_refl _)
    refine ⟨fun k hk j hj => ?_, fun k hk i hi => ?_, fun j hj i hi => ?_, fun i hi j hj k hk => ?_⟩
    · have := (hV _ (posn_lt (o := o) (d := 1) hj) _ (posn_lt (o := o) (d := 2) hk)).2
      rw [posn_posn hj, posn_posn hk] at this
      exact this.trans ((aVH _ (posn_lt hk)).1 _ (posn_lt hj) nx (le_refl _))
    · have := (hH _ (posn_lt (o := o) (d := 0) hi) _ (posn_lt (o := o) (d := 2) hk)).2
      rw [posn_posn hi, posn_posn hk] at this
      exact this.trans ((aVH _ (posn_lt hk)).2 _ (posn_lt hi) ny (le_refl _))
    · have := (hZ _ (posn_lt (o := o) (d := 0) hi) _ (posn_lt (o := o) (d := 1) hj)).2
      rw [posn_posn hi, posn_posn hj] at this
      exact this.trans (aZ _ (posn_lt hi) _ (posn_lt hj))
    · have hp := posn_lt (o := o) (d := 0) hi
      have hq := posn_lt (o := o) (d := 1) hj
      have ht := posn_lt (o := o) (d := 2) hk
      have := (step _ hp _ hq _ ht ((aVH _ ht).1 _ hq _ hp.le) ((aVH _ ht).2 _ hp _ hq.le)
        ((all _ ht.le).1 _ hp _ hq)).1
      rwa [posn_posn hi, posn_posn hj, posn_posn hk] at this
  refine ⟨key, fun i hi j hj k hk => ?_⟩
  rw [h2 _ (by
    have h1 : j * nx + nx ≤ nx * ny := by
      have := Nat.mul_le_mul_left nx (show j + 1 ≤ ny from hj)
      rw [Nat.mul_add, Nat.mul_one, Nat.mul_comm nx j] at this; exact this
    have h2 : k * nx * ny + nx * ny ≤ nx * ny * nz := by
      have := Nat.mul_le_mul_left (nx * ny) (show k + 1 ≤ nz from hk)
      rw [Nat.mul_add, Nat.mul_one, Nat.mul_comm (nx * ny) k, ← Nat.mul_assoc] at this; exact this
    omega)]
  have : ∀ o ∈ range 8, ∑ a ∈ range na, w a * s'.psi o a (i + j * nx + k * nx * ny) =
      c * ∑ a ∈ range na, w a := by
    intro o ho
    rw [mul_sum]
    refine sum_congr rfl fun a ha => ?_
    rw [(key o (mem_range.1 ho) a (mem_range.1 ha)).2.2.2 i hi j hj k hk, mul_comm]
  rw [sum_congr rfl this, sum_const, card_range, nsmul_eq_mul]
  push_cast; ring

/-- A slab of two different materials with flat incident flux 3 and the matching source. -/
example :
    let s' := sweepWith [1, 0] 2 (angle1 (mesh1 dd1 (fun a => [1 / 2, 1 / 3].getD a (0 : ℚ))
      (fun i => [1, 2].getD i 0) (fun i => [4, 5].getD i 0)) (fun _ _ i => [12, 15].getD i 0)
      (fun a => [1 / 4, 1 / 4].getD a 0) 2 true (fun b _ _ => b))
      ⟨fun _ _ _ => 3, fun _ => 0, fun _ _ _ => 0⟩
    s'.phi 0 = 3 ∧ s'.phi 1 = 3 ∧ s'.bdy 0 1 0 = 3 ∧ s'.psi 1 1 0 = 3 := by decide +kernel

end Detran.Sweep
