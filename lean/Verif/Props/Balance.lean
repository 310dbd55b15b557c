import Verif.Props.Sweep

/-!
# Particle balance, linearity and sign of sweeps; octant ordering (C26, C27, C29)
-/

namespace Detran.Sweep

open Detran.Solver Finset

/-! ## C26: balance in a cell -/

section cell
variable {K : Type} [Field K]

/-- 1-D diamond differences: collisions plus net leakage equals source. -/
theorem C26_dd1_cell (mu dx sigt s pin : K) (hdx : dx ≠ 0) (hd : sigt + 2 * mu / dx ≠ 0) :
    sigt * (dd1 mu dx sigt s pin).1 * dx + mu * ((dd1 mu dx sigt s pin).2 - pin) = s * dx := by
  have e : (dd1 mu dx sigt s pin).1 * (sigt + 2 * mu / dx) = s + 2 * mu / dx * pin := by
    simp only [dd1]
    rw [mul_comm, ← mul_assoc, mul_one_div_cancel hd, one_mul]
  have e2 : (dd1 mu dx sigt s pin).2 = 2 * (dd1 mu dx sigt s pin).1 - pin := rfl
  rw [e2]
  generalize (dd1 mu dx sigt s pin).1 = c at e
  have h3 : c * (sigt * dx + 2 * mu) = s * dx + 2 * mu * pin := by
    field_simp at e
    linear_combination e
  linear_combination h3

/-- 1-D step differences. -/
theorem C26_sd1_cell (mu dx sigt s pin : K) (hdx : dx ≠ 0) (hd : sigt + mu / dx ≠ 0) :
    sigt * (sd1 mu dx sigt s pin).1 * dx + mu * ((sd1 mu dx sigt s pin).2 - pin) = s * dx := by
  have e : (sd1 mu dx sigt s pin).1 * (sigt + mu / dx) = s + mu / dx * pin := by
    simp only [sd1]
    rw [mul_comm, ← mul_assoc, mul_one_div_cancel hd, one_mul]
  have e2 : (sd1 mu dx sigt s pin).2 = (sd1 mu dx sigt s pin).1 := rfl
  rw [e2]
  generalize (sd1 mu dx sigt s pin).1 = c at e
  have h3 : c * (sigt * dx + mu) = s * dx + mu * pin := by
    field_simp at e
    linear_combination e
  linear_combination h3

/-- 1-D step characteristics, whatever approximation `ex` of the exponential is used. -/
theorem C26_sc1_cell (ex : K → K) (mu dx sigt s pin : K) (hdx : dx ≠ 0) (hs : sigt ≠ 0)
    (hmu : mu ≠ 0) :
    sigt * (sc1 ex mu dx sigt s pin).1 * dx + mu * ((sc1 ex mu dx sigt s pin).2 - pin) =
      s * dx := by
  simp only [sc1]
  generalize ex (-(sigt * dx / mu)) = A
  field_simp
  ring

/-- 2-D diamond differences. -/
theorem C26_dd2_cell (mu eta dx dy sigt s : K) (pin : K × K) (hdx : dx ≠ 0) (hdy : dy ≠ 0)
    (hd : sigt + 2 * mu / dx + 2 * eta / dy ≠ 0) :
    sigt * (dd2 mu eta dx dy sigt s pin).1 * (dx * dy) +
      mu * dy * ((dd2 mu eta dx dy sigt s pin).2.1 - pin.1) +
      eta * dx * ((dd2 mu eta dx dy sigt s pin).2.2 - pin.2) = s * (dx * dy) := by
  have e : (dd2 mu eta dx dy sigt s pin).1 * (sigt + 2 * mu / dx + 2 * eta / dy) =
      s + 2 * mu / dx * pin.1 + 2 * eta / dy * pin.2 := by
    simp only [dd2]
    rw [mul_comm, ← mul_assoc, mul_one_div_cancel hd, one_mul]
  have e2 : (dd2 mu eta dx dy sigt s pin).2 =
      (2 * (dd2 mu eta dx dy sigt s pin).1 - pin.1, 2 * (dd2 mu eta dx dy sigt s pin).1 - pin.2) :=
    rfl
  rw [e2]
  generalize (dd2 mu eta dx dy sigt s pin).1 = c at e
  have h3 : c * (sigt * dx * dy + 2 * mu * dy + 2 * eta * dx) =
      s * dx * dy + 2 * mu * dy * pin.1 + 2 * eta * dx * pin.2 := by
    have : c * (sigt * dx * dy + 2 * mu * dy + 2 * eta * dx) =
        c * (sigt + 2 * mu / dx + 2 * eta / dy) * (dx * dy) := by field_simp
    rw [this, e]
    field_simp
  simp only []
  linear_combination h3

/-- 2-D step differences. -/
theorem C26_sd2_cell (mu eta dx dy sigt s : K) (pin : K × K) (hdx : dx ≠ 0) (hdy : dy ≠ 0)
    (hd : sigt + mu / dx + eta / dy ≠ 0) :
    sigt * (sd2 mu eta dx dy sigt s pin).1 * (dx * dy) +
      mu * dy * ((sd2 mu eta dx dy sigt s pin).2.1 - pin.1) +
      eta * dx * ((sd2 mu eta dx dy sigt s pin).2.2 - pin.2) = s * (dx * dy) := by
  have e : (sd2 mu eta dx dy sigt s pin).1 * (sigt + mu / dx + eta / dy) =
      s + mu / dx * pin.1 + eta / dy * pin.2 := by
    simp only [sd2]
    rw [mul_comm, ← mul_assoc, mul_one_div_cancel hd, one_mul]
  have e2 : (sd2 mu eta dx dy sigt s pin).2 =
      ((sd2 mu eta dx dy sigt s pin).1, (sd2 mu eta dx dy sigt s pin).1) := rfl
  rw [e2]
  generalize (sd2 mu eta dx dy sigt s pin).1 = c at e
  have h3 : c * (sigt * dx * dy + mu * dy + eta * dx) =
      s * dx * dy + mu * dy * pin.1 + eta * dx * pin.2 := by
    have : c * (sigt * dx * dy + mu * dy + eta * dx) =
        c * (sigt + mu / dx + eta / dy) * (dx * dy) := by field_simp
    rw [this, e]
    field_simp
  simp only []
  linear_combination h3

/-- 2-D step characteristics. -/
theorem C26_sc2_cell [LE K] [DecidableLE K] (ex : K → K) (mu eta dx dy sigt s : K) (pin : K × K)
    (hdx : dx ≠ 0) (hdy : dy ≠ 0) (hs : sigt ≠ 0) (hmu : mu ≠ 0) (heta : eta ≠ 0) :
    sigt * (sc2 ex mu eta dx dy sigt s pin).1 * (dx * dy) +
      mu * dy * ((sc2 ex mu eta dx dy sigt s pin).2.1 - pin.1) +
      eta * dx * ((sc2 ex mu eta dx dy sigt s pin).2.2 - pin.2) = s * (dx * dy) := by
  have e2 : (sc2 ex mu eta dx dy sigt s pin).1 = s / sigt -
      ((sc2 ex mu eta dx dy sigt s pin).2.1 - pin.1) / (sigt * (dx / mu)) -
      ((sc2 ex mu eta dx dy sigt s pin).2.2 - pin.2) / (sigt * (dy / eta)) := rfl
  rw [e2]
  generalize (sc2 ex mu eta dx dy sigt s pin).2.1 = v
  generalize (sc2 ex mu eta dx dy sigt s pin).2.2 = h
  field_simp
  ring

/-- 3-D diamond differences. -/
theorem C26_dd3_cell (mu eta xi dx dy dz sigt s : K) (pin : K × K × K) (hdx : dx ≠ 0)
    (hdy : dy ≠ 0) (hdz : dz ≠ 0)
    (hd : sigt + 2 * mu / dx + 2 * eta / dy + 2 * xi / dz ≠ 0) :
    sigt * (dd3 mu eta xi dx dy dz sigt s pin).1 * (dx * dy * dz) +
      mu * (dy * dz) * ((dd3 mu eta xi dx dy dz sigt s pin).2.1 - pin.1) +
      eta * (dx * dz) * ((dd3 mu eta xi dx dy dz sigt s pin).2.2.1 - pin.2.1) +
      xi * (dx * dy) * ((dd3 mu eta xi dx dy dz sigt s pin).2.2.2 - pin.2.2) =
        s * (dx * dy * dz) := by
  have e : (dd3 mu eta xi dx dy dz sigt s pin).1 *
      (sigt + 2 * mu / dx + 2 * eta / dy + 2 * xi / dz) =
      s + 2 * mu / dx * pin.1 + 2 * eta / dy * pin.2.1 + 2 * xi / dz * pin.2.2 := by
    simp only [dd3]
    rw [mul_comm, ← mul_assoc, mul_one_div_cancel hd, one_mul]
  have e2 : (dd3 mu eta xi dx dy dz sigt s pin).2 =
      (2 * (dd3 mu eta xi dx dy dz sigt s pin).1 - pin.1,
       2 * (dd3 mu eta xi dx dy dz sigt s pin).1 - pin.2.1,
       2 * (dd3 mu eta xi dx dy dz sigt s pin).1 - pin.2.2) := rfl
  rw [e2]
  generalize (dd3 mu eta xi dx dy dz sigt s pin).1 = c at e
  have h3 : c * (sigt * (dx * dy * dz) + 2 * mu * (dy * dz) + 2 * eta * (dx * dz) +
        2 * xi * (dx * dy)) =
      s * (dx * dy * dz) + 2 * mu * (dy * dz) * pin.1 + 2 * eta * (dx * dz) * pin.2.1 +
        2 * xi * (dx * dy) * pin.2.2 := by
    have : c * (sigt * (dx * dy * dz) + 2 * mu * (dy * dz) + 2 * eta * (dx * dz) +
        2 * xi * (dx * dy)) =
        c * (sigt + 2 * mu / dx + 2 * eta / dy + 2 * xi / dz) * (dx * dy * dz) := by field_simp
    rw [this, e]
    field_simp
  simp only []
  linear_combination h3

end cell

/-! ## C26: balance of a whole sweep -/

section sweep
variable {K : Type} [Field K] [LinearOrder K] [IsStrictOrderedRing K]

/-- Net current of direction `(o, a)` out of a slab. -/
def leak1 (mu : Nat → K) (b : Nat → Nat → Nat → K) (o a : Nat) : K :=
  mu a * (b (exit o 0) o a - b (entry o 0) o a)

/-- Net current of direction `(o, a)` out of a rectangle. -/
def leak2 (mu eta : Nat → K) (dx dy : Nat → K) (nx ny : Nat) (b : Nat → Nat → Nat → Nat → K)
    (o a : Nat) : K :=
  mu a * ∑ j ∈ range ny, dy j * (b (exit o 0) o a j - b (entry o 0) o a j) +
  eta a * ∑ i ∈ range nx, dx i * (b (exit o 1) o a i - b (entry o 1) o a i)

/-- Net current of direction `(o, a)` out of a box. -/
def leak3 (mu eta xi : Nat → K) (dx dy dz : Nat → K) (nx ny nz : Nat)
    (b : Nat → Nat → Nat → Nat → Nat → K) (o a : Nat) : K :=
  mu a * ∑ k ∈ range nz, ∑ j ∈ range ny,
    dy j * dz k * (b (exit o 0) o a k j - b (entry o 0) o a k j) +
  eta a * ∑ k ∈ range nz, ∑ i ∈ range nx,
    dx i * dz k * (b (exit o 1) o a k i - b (entry o 1) o a k i) +
  xi a * ∑ j ∈ range ny, ∑ i ∈ range nx,
    dx i * dy j * (b (exit o 2) o a j i - b (entry o 2) o a j i)

/-- Balance of a 1-D sweep with any scheme that is balanced in each cell. -/
theorem sweep1_balance (eq : Nat → (Nat → K) → Nat → K → K × K) (mu dx sigt : Nat → K)
    (src : Nat → Nat → Nat → K) (w : Nat → K) (nx na : Nat) (up : Bool) (bup)
    (hb : OnlyIncident 1 bup) (order : List Nat) (hord : order.Perm (List.range 2)) (s : St K K)
    (hcell : ∀ a < na, ∀ q : Nat → K, ∀ i < nx, ∀ p,
      sigt i * (eq a q i p).1 * dx i + mu a * ((eq a q i p).2 - p) = q i * dx i) :
    let s' := sweepWith order na (angle1 eq src w nx up bup) s
    ∑ c ∈ range nx, dx c * sigt c * s'.phi c +
        ∑ o ∈ range 2, ∑ a ∈ range na, w a * leak1 mu s'.bdy o a =
      ∑ o ∈ range 2, ∑ a ∈ range na, w a * ∑ c ∈ range nx, dx c * src o a c := by
  intro s'
  have hmem : ∀ p ∈ pairs order na, p.1 < 2 ∧ p.2 < na := fun p hp =>
    ⟨List.mem_range.1 (hord.mem_iff.1 (mem_pairs.1 hp).1), (mem_pairs.1 hp).2⟩
  have hnd : (pairs order na).Nodup := pairs_nodup (hord.nodup_iff.2 List.nodup_range) na
  have es : s' = (pairs order na).foldl (fun s p => angle1 eq src w nx up bup s p.1 p.2)
    { s with phi := fun _ => 0 } := sweepWith_eq _ _ _ _
  have := foldl_keyed (angle1 eq src w nx up bup) trace
    (fun s => ∑ c ∈ range nx, dx c * sigt c * s.phi c)
    (fun o a X => w a * ∑ c ∈ range nx, dx c * src o a c -
      w a * (mu a * (X.1 (exit o 0) - X.1 (entry o 0)))) (pairs order na) hnd (fun p hp s => by
      obtain ⟨t1, t2⟩ := tables1 p.1 (hmem p hp).1
      have h := line1_balance (eq p.2 (src p.1 p.2)) up (w p.2) (mu p.2) nx dx sigt (src p.1 p.2)
        (fun i hi q => hcell p.2 (hmem p hp).2 _ i hi q) (cells nx 0 p.1) (fun i hi => mem_cells.1 hi)
        ⟨bup s.bdy p.1 p.2 (in1 p.1) p.1 p.2, s.phi, s.psi p.1 p.2⟩
      rw [cells_sum] at h
      simp only [trace, angle1, t1, t2] at h ⊢
      rw [setB_same, setB_other _ _ _ _ _ _ _ _ (fun e => entry_ne_exit p.1 0 0 e.1)]
      linear_combination h)
    (fun p _ s q hq => trace1_other eq src w nx up bup hb s p q hq)
    { s with phi := fun _ => 0 }
  rw [← es] at this
  rw [this, pairs_sum order na 2 hord (fun o a => w a * ∑ c ∈ range nx, dx c * src o a c -
      w a * (mu a * ((trace s' o a).1 (exit o 0) - (trace s' o a).1 (entry o 0))))]
  simp only [mul_zero, sum_const_zero, zero_add, sum_sub_distrib, trace, leak1]
  ring

/-- Balance of a 2-D sweep with any scheme that is balanced in each cell. -/
theorem sweep2_balance (eq : Nat → (Nat → K) → Nat → Nat → K × K → K × (K × K))
    (mu eta dx dy sigt : Nat → K) (src : Nat → Nat → Nat → K) (w : Nat → K) (nx ny na : Nat)
    (up : Bool) (bup) (hb : OnlyIncident 2 bup) (order : List Nat)
    (hord : order.Perm (List.range 4)) (s : St (Nat → K) K)
    (hcell : ∀ a < na, ∀ q : Nat → K, ∀ i < nx, ∀ j < ny, ∀ p,
      sigt (i + j * nx) * (eq a q i j p).1 * (dx i * dy j) +
      mu a * dy j * ((eq a q i j p).2.1 - p.1) + eta a * dx i * ((eq a q i j p).2.2 - p.2) =
        q (i + j * nx) * (dx i * dy j)) :
    let s' := sweepWith order na (angle2 eq src w nx ny up bup) s
    ∑ j ∈ range ny, ∑ i ∈ range nx, dx i * dy j * sigt (i + j * nx) * s'.phi (i + j * nx) +
        ∑ o ∈ range 4, ∑ a ∈ range na, w a * leak2 mu eta dx dy nx ny s'.bdy o a =
      ∑ o ∈ range 4, ∑ a ∈ range na,
        w a * ∑ j ∈ range ny, ∑ i ∈ range nx, dx i * dy j * src o a (i + j * nx) := by
  intro s'
  have hmem : ∀ p ∈ pairs order na, p.1 < 4 ∧ p.2 < na := fun p hp =>
    ⟨List.mem_range.1 (hord.mem_iff.1 (mem_pairs.1 hp).1), (mem_pairs.1 hp).2⟩
  have hnd : (pairs order na).Nodup := pairs_nodup (hord.nodup_iff.2 List.nodup_range) na
  have es : s' = (pairs order na).foldl (fun s p => angle2 eq src w nx ny up bup s p.1 p.2)
    { s with phi := fun _ => 0 } := sweepWith_eq _ _ _ _
  let W : Nat → K := fun c => dx (c % nx) * dy (c / nx) * sigt c
  have hW : ∀ i < nx, ∀ j < ny, W (i + j * nx) = dx i * dy j * sigt (i + j * nx) := by
    intro i hi j _
    simp only [W]
    rw [Nat.add_mul_mod_self_right, Nat.mod_eq_of_lt hi, Nat.add_mul_div_right _ _ (by omega),
      Nat.div_eq_of_lt hi, Nat.zero_add]
  have hsum : ∀ f : Nat → K, ∑ c ∈ range (nx * ny), W c * f c =
      ∑ j ∈ range ny, ∑ i ∈ range nx, dx i * dy j * sigt (i + j * nx) * f (i + j * nx) := by
    intro f
    rw [Detran.Mesh.sum_range_mul]
    apply sum_congr rfl; intro j hj
    apply sum_congr rfl; intro i hi
    rw [Nat.mul_comm nx j, hW i (mem_range.1 hi) j (mem_range.1 hj)]
  have := foldl_keyed (angle2 eq src w nx ny up bup) trace
    (fun s => ∑ c ∈ range (nx * ny), W c * s.phi c)
    (fun o a X => w a * ∑ j ∈ range ny, ∑ i ∈ range nx, dx i * dy j * src o a (i + j * nx) -
      w a * (mu a * ∑ j ∈ range ny, dy j * (X.1 (exit o 0) j - X.1 (entry o 0) j) +
        eta a * ∑ i ∈ range nx, dx i * (X.1 (exit o 1) i - X.1 (entry o 1) i)))
    (pairs order na) hnd (fun p hp s => by
      obtain ⟨t1, t2⟩ := tables2 p.1 (hmem p hp).1
      have h := row2_balance (eq p.2 (src p.1 p.2)) up (w p.2) (mu p.2) (eta p.2) nx ny dx dy sigt
        (src p.1 p.2) (fun i hi j hj q => hcell p.2 (hmem p hp).2 _ i hi j hj q) W hW
        (cells nx 0 p.1) (cells ny 1 p.1) (fun i hi => mem_cells.1 hi) (fun i hi => mem_cells.1 hi)
        ⟨⟨0, bup s.bdy p.1 p.2 (in2 p.1).1 p.1 p.2, bup s.bdy p.1 p.2 (in2 p.1).2 p.1 p.2⟩,
          s.phi, s.psi p.1 p.2⟩
      simp only [cells_sum] at h
      simp only [trace, angle2, t1, t2, mul_sub, sum_sub_distrib] at h ⊢
      rw [setB_same, setB_other _ _ _ _ _ _ _ _ (fun e => entry_ne_exit p.1 0 1 e.1),
        setB_other _ _ _ _ _ _ _ _ (fun e => entry_ne_exit p.1 0 0 e.1),
        setB_other _ _ _ _ _ _ _ _ (fun e => absurd (exit_inj e.1) (by omega)), setB_same,
        setB_other _ _ _ _ _ _ _ _ (fun e => entry_ne_exit p.1 1 1 e.1),
        setB_other _ _ _ _ _ _ _ _ (fun e => entry_ne_exit p.1 1 0 e.1)]
      linear_combination h)
    (fun p _ s q hq => trace2_other eq src w nx ny up bup hb s p q hq)
    { s with phi := fun _ => 0 }
  rw [← es] at this
  simp only [] at this
  rw [hsum] at this
  rw [this, pairs_sum order na 4 hord (fun o a =>
    w a * ∑ j ∈ range ny, ∑ i ∈ range nx, dx i * dy j * src o a (i + j * nx) -
      w a * (mu a * ∑ j ∈ range ny, dy j * ((trace s' o a).1 (exit o 0) j -
          (trace s' o a).1 (entry o 0) j) +
        eta a * ∑ i ∈ range nx, dx i * ((trace s' o a).1 (exit o 1) i -
          (trace s' o a).1 (entry o 1) i)))]
  simp only [mul_zero, sum_const_zero, zero_add, sum_sub_distrib, trace, leak2]
  ring

/-- Balance of a 3-D sweep with any scheme that is balanced in each cell. -/
theorem sweep3_balance
    (eq : Nat → (Nat → K) → Nat → Nat → Nat → K × K × K → K × (K × K × K))
    (mu eta xi dx dy dz sigt : Nat → K) (src : Nat → Nat → Nat → K) (w : Nat → K)
    (nx ny nz na : Nat) (hfit : nx ≤ 2 ^ 32)
    (up : Bool) (bup) (hb : OnlyIncident 3 bup) (order : List Nat)
    (hord : order.Perm (List.range 8)) (s : St (Nat → Nat → K) K)
    (hcell : ∀ a < na, ∀ q : Nat → K, ∀ i < nx, ∀ j < ny, ∀ k < nz, ∀ p,
      sigt (i + j * nx + k * nx * ny) * (eq a q i j k p).1 * (dx i * dy j * dz k) +
      mu a * (dy j * dz k) * ((eq a q i j k p).2.1 - p.1) +
      eta a * (dx i * dz k) * ((eq a q i j k p).2.2.1 - p.2.1) +
      xi a * (dx i * dy j) * ((eq a q i j k p).2.2.2 - p.2.2) =
        q (i + j * nx + k * nx * ny) * (dx i * dy j * dz k)) :
    let s' := sweepWith order na (angle3 eq src w nx ny nz up bup) s
    let c := fun i j k => i + j * nx + k * nx * ny
    ∑ k ∈ range nz, ∑ j ∈ range ny, ∑ i ∈ range nx,
          dx i * dy j * dz k * sigt (c i j k) * s'.phi (c i j k) +
        ∑ o ∈ range 8, ∑ a ∈ range na, w a * leak3 mu eta xi dx dy dz nx ny nz s'.bdy o a =
      ∑ o ∈ range 8, ∑ a ∈ range na, w a * ∑ k ∈ range nz, ∑ j ∈ range ny, ∑ i ∈ range nx,
          dx i * dy j * dz k * src o a (c i j k) := by
  intro s' c
  have hmem : ∀ p ∈ pairs order na, p.1 < 8 ∧ p.2 < na := fun p hp =>
    ⟨List.mem_range.1 (hord.mem_iff.1 (mem_pairs.1 hp).1), (mem_pairs.1 hp).2⟩
  have hnd : (pairs order na).Nodup := pairs_nodup (hord.nodup_iff.2 List.nodup_range) na
  have es : s' = (pairs order na).foldl (fun s p => angle3 eq src w nx ny nz up bup s p.1 p.2)
    { s with phi := fun _ => 0 } := sweepWith_eq _ _ _ _
  let W : Nat → K := fun c => dx (c % nx) * dy (c % (nx * ny) / nx) * dz (c / (nx * ny)) * sigt c
  have hW : ∀ i < nx, ∀ j < ny, ∀ k < nz, W (i + j * nx + k * nx * ny) =
      dx i * dy j * dz k * sigt (i + j * nx + k * nx * ny) := by
    intro i hi j hj k _
    simp only [W]
    rw [Detran.Mesh.idx_i hi, Detran.Mesh.idx_j hi hj, Detran.Mesh.idx_k hi hj]
  have hsum : ∀ f : Nat → K, ∑ c ∈ range (nx * ny * nz), W c * f c =
      ∑ k ∈ range nz, ∑ j ∈ range ny, ∑ i ∈ range nx,
        dx i * dy j * dz k * sigt (c i j k) * f (c i j k) := by
    intro f
    rw [Detran.Mesh.sum_range_mul]
    apply sum_congr rfl; intro k hk
    rw [Detran.Mesh.sum_range_mul nx ny (fun r => W (r + nx * ny * k) * f (r + nx * ny * k))]
    apply sum_congr rfl; intro j hj
    apply sum_congr rfl; intro i hi
    have : i + nx * j + nx * ny * k = i + j * nx + k * nx * ny := by ring
    rw [this, hW i (mem_range.1 hi) j (mem_range.1 hj) k (mem_range.1 hk)]
  have := foldl_keyed (angle3 eq src w nx ny nz up bup) trace
    (fun s => ∑ c ∈ range (nx * ny * nz), W c * s.phi c)
    (fun o a X => w a * (∑ k ∈ range nz, ∑ j ∈ range ny, ∑ i ∈ range nx,
          dx i * dy j * dz k * src o a (c i j k)) -
      w a * (mu a * (∑ k ∈ range nz, ∑ j ∈ range ny,
            dy j * dz k * (X.1 (exit o 0) k j - X.1 (entry o 0) k j)) +
        eta a * (∑ k ∈ range nz, ∑ i ∈ range nx,
            dx i * dz k * (X.1 (exit o 1) k i - X.1 (entry o 1) k i)) +
        xi a * (∑ j ∈ range ny, ∑ i ∈ range nx,
            dx i * dy j * (X.1 (exit o 2) j i - X.1 (entry o 2) j i))))
    (pairs order na) hnd (fun p hp s => by
      obtain ⟨t1, t2⟩ := tables3 p.1 (hmem p hp).1
      have h := plane3_balance (eq p.2 (src p.1 p.2)) up (w p.2) (mu p.2) (eta p.2) (xi p.2)
        nx ny nz dx dy dz sigt
        (src p.1 p.2) (fun i hi j hj k hk q => hcell p.2 (hmem p hp).2 _ i hi j hj k hk q) W hW
        (cells nx 0 p.1) (cells ny 1 p.1) (cells nz 2 p.1)
        (fun i hi => mem_cells.1 hi) (fun i hi => mem_cells.1 hi) (fun i hi => mem_cells.1 hi)
        ⟨⟨0, bup s.bdy p.1 p.2 (in3 p.1).1 p.1 p.2, bup s.bdy p.1 p.2 (in3 p.1).2.1 p.1 p.2,
          bup s.bdy p.1 p.2 (in3 p.1).2.2 p.1 p.2⟩, s.phi, s.psi p.1 p.2⟩
      simp only [cells_sum] at h
      simp only [trace, angle3, t1, t2, mul_sub, sum_sub_distrib] at h ⊢
      rw [setB_same, setB_other _ _ _ _ _ _ _ _ (fun e => entry_ne_exit p.1 0 2 e.1),
        setB_other _ _ _ _ _ _ _ _ (fun e => entry_ne_exit p.1 0 1 e.1),
        setB_other _ _ _ _ _ _ _ _ (fun e => entry_ne_exit p.1 0 0 e.1),
        setB_other _ _ _ _ _ _ _ _ (fun e => entry_ne_exit p.1 1 2 e.1),
        setB_other _ _ _ _ _ _ _ _ (fun e => entry_ne_exit p.1 1 1 e.1),
        setB_other _ _ _ _ _ _ _ _ (fun e => entry_ne_exit p.1 1 0 e.1),
        setB_other _ _ _ _ _ _ _ _ (fun e => entry_ne_exit p.1 2 2 e.1),
        setB_other _ _ _ _ _ _ _ _ (fun e => entry_ne_exit p.1 2 1 e.1),
        setB_other _ _ _ _ _ _ _ _ (fun e => entry_ne_exit p.1 2 0 e.1),
        setB_other _ (exit p.1 2) _ _ _ (exit p.1 0) _ _
          (fun e => absurd (exit_inj e.1) (by omega)),
        setB_other _ (exit p.1 1) _ _ _ (exit p.1 0) _ _
          (fun e => absurd (exit_inj e.1) (by omega)), setB_same,
        setB_other _ (exit p.1 2) _ _ _ (exit p.1 1) _ _
          (fun e => absurd (exit_inj e.1) (by omega)), setB_same, cellsU_eq _ _ _ hfit]
      linear_combination h)
    (fun p _ s q hq => trace3_other eq src w nx ny nz up bup hb s p q hq)
    { s with phi := fun _ => 0 }
  rw [← es] at this
  simp only [] at this
  rw [hsum] at this
  rw [this, pairs_sum order na 8 hord (fun o a =>
    w a * (∑ k ∈ range nz, ∑ j ∈ range ny, ∑ i ∈ range nx,
          dx i * dy j * dz k * src o a (c i j k)) -
      w a * (mu a * (∑ k ∈ range nz, ∑ j ∈ range ny,
            dy j * dz k * ((trace s' o a).1 (exit o 0) k j - (trace s' o a).1 (entry o 0) k j)) +
        eta a * (∑ k ∈ range nz, ∑ i ∈ range nx,
            dx i * dz k * ((trace s' o a).1 (exit o 1) k i - (trace s' o a).1 (entry o 1) k i)) +
        xi a * (∑ j ∈ range ny, ∑ i ∈ range nx,
            dx i * dy j * ((trace s' o a).1 (exit o 2) j i - (trace s' o a).1 (entry o 2) j i))))]
  simp only [mul_zero, sum_const_zero, zero_add, sum_sub_distrib, trace, leak3]
  ring

/-- 1-D sweeps with diamond or step differences: total collisions plus net leakage equals the
    total source, for every mesh with non-negative cross sections (voids included), every source,
    incident flux and boundary update. -/
theorem C26_sweep_balance_1D (scheme : K → K → K → K → K → K × K)
    (hs : scheme = dd1 ∨ scheme = sd1) (mu dx sigt : Nat → K) (src : Nat → Nat → Nat → K)
    (w : Nat → K) (nx na : Nat) (hmu : ∀ a < na, 0 < mu a) (hdx : ∀ i < nx, 0 < dx i)
    (hst : ∀ i < nx, 0 ≤ sigt i) (up : Bool) (bup) (hb : OnlyIncident 1 bup) (order : List Nat)
    (hord : order.Perm (List.range 2)) (s : St K K) :
    let s' := sweepWith order na (angle1 (mesh1 scheme mu dx sigt) src w nx up bup) s
    ∑ c ∈ range nx, dx c * sigt c * s'.phi c +
        ∑ o ∈ range 2, ∑ a ∈ range na, w a * leak1 mu s'.bdy o a =
      ∑ o ∈ range 2, ∑ a ∈ range na, w a * ∑ c ∈ range nx, dx c * src o a c := by
  apply sweep1_balance _ mu dx sigt src w nx na up bup hb order hord s
  intro a ha q i hi p
  have h1 := hmu a ha
  have h2 := hdx i hi
  have h3 := hst i hi
  rcases hs with rfl | rfl
  · exact C26_dd1_cell _ _ _ _ _ h2.ne' (by positivity)
  · exact C26_sd1_cell _ _ _ _ _ h2.ne' (by positivity)

/-- 1-D sweeps with step characteristics, for non-void meshes. -/
theorem C26_sweep_balance_sc1 (ex : K → K) (mu dx sigt : Nat → K) (src : Nat → Nat → Nat → K)
    (w : Nat → K) (nx na : Nat) (hmu : ∀ a < na, 0 < mu a) (hdx : ∀ i < nx, 0 < dx i)
    (hst : ∀ i < nx, 0 < sigt i) (up : Bool) (bup) (hb : OnlyIncident 1 bup) (order : List Nat)
    (hord : order.Perm (List.range 2)) (s : St K K) :
    let s' := sweepWith order na (angle1 (mesh1 (sc1 ex) mu dx sigt) src w nx up bup) s
    ∑ c ∈ range nx, dx c * sigt c * s'.phi c +
        ∑ o ∈ range 2, ∑ a ∈ range na, w a * leak1 mu s'.bdy o a =
      ∑ o ∈ range 2, ∑ a ∈ range na, w a * ∑ c ∈ range nx, dx c * src o a c := by
  apply sweep1_balance _ mu dx sigt src w nx na up bup hb order hord s
  intro a ha q i hi p
  exact C26_sc1_cell ex _ _ _ _ _ (hdx i hi).ne' (hst i hi).ne' (hmu a ha).ne'

/-- 2-D sweeps with diamond or step differences. -/
theorem C26_sweep_balance_2D (scheme : K → K → K → K → K → K → K × K → K × (K × K))
    (hs : scheme = dd2 ∨ scheme = sd2) (mu eta dx dy sigt : Nat → K) (src : Nat → Nat → Nat → K)
    (w : Nat → K) (nx ny na : Nat) (hmu : ∀ a < na, 0 < mu a ∧ 0 < eta a)
    (hdx : ∀ i < nx, 0 < dx i) (hdy : ∀ j < ny, 0 < dy j)
    (hst : ∀ c < nx * ny, 0 ≤ sigt c) (up : Bool) (bup) (hb : OnlyIncident 2 bup)
    (order : List Nat) (hord : order.Perm (List.range 4)) (s : St (Nat → K) K) :
    let s' := sweepWith order na (angle2 (mesh2 scheme mu eta dx dy sigt nx) src w nx ny up bup) s
    ∑ j ∈ range ny, ∑ i ∈ range nx, dx i * dy j * sigt (i + j * nx) * s'.phi (i + j * nx) +
        ∑ o ∈ range 4, ∑ a ∈ range na, w a * leak2 mu eta dx dy nx ny s'.bdy o a =
      ∑ o ∈ range 4, ∑ a ∈ range na,
        w a * ∑ j ∈ range ny, ∑ i ∈ range nx, dx i * dy j * src o a (i + j * nx) := by
  apply sweep2_balance _ mu eta dx dy sigt src w nx ny na up bup hb order hord s
  intro a ha q i hi j hj p
  have h1 := (hmu a ha).1
  have h1' := (hmu a ha).2
  have h2 := hdx i hi
  have h2' := hdy j hj
  have h3 := hst (i + j * nx) (Detran.Mesh.idx_row_lt hi hj)
  rcases hs with rfl | rfl
  · exact C26_dd2_cell _ _ _ _ _ _ _ h2.ne' h2'.ne' (by positivity)
  · exact C26_sd2_cell _ _ _ _ _ _ _ h2.ne' h2'.ne' (by positivity)

/-- 2-D sweeps with step characteristics, for non-void meshes. -/
theorem C26_sweep_balance_sc2 (ex : K → K) (mu eta dx dy sigt : Nat → K)
    (src : Nat → Nat → Nat → K)
    (w : Nat → K) (nx ny na : Nat) (hmu : ∀ a < na, 0 < mu a ∧ 0 < eta a)
    (hdx : ∀ i < nx, 0 < dx i) (hdy : ∀ j < ny, 0 < dy j)
    (hst : ∀ c < nx * ny, 0 < sigt c) (up : Bool) (bup) (hb : OnlyIncident 2 bup)
    (order : List Nat) (hord : order.Perm (List.range 4)) (s : St (Nat → K) K) :
    let s' := sweepWith order na
      (angle2 (mesh2 (sc2 ex) mu eta dx dy sigt nx) src w nx ny up bup) s
    ∑ j ∈ range ny, ∑ i ∈ range nx, dx i * dy j * sigt (i + j * nx) * s'.phi (i + j * nx) +
        ∑ o ∈ range 4, ∑ a ∈ range na, w a * leak2 mu eta dx dy nx ny s'.bdy o a =
      ∑ o ∈ range 4, ∑ a ∈ range na,
        w a * ∑ j ∈ range ny, ∑ i ∈ range nx, dx i * dy j * src o a (i + j * nx) := by
  apply sweep2_balance _ mu eta dx dy sigt src w nx ny na up bup hb order hord s
  intro a ha q i hi j hj p
  exact C26_sc2_cell ex _ _ _ _ _ _ _ (hdx i hi).ne' (hdy j hj).ne'
    (hst _ (Detran.Mesh.idx_row_lt hi hj)).ne' (hmu a ha).1.ne' (hmu a ha).2.ne'

/-- 3-D sweeps with diamond differences. -/
theorem C26_sweep_balance_3D (mu eta xi dx dy dz sigt : Nat → K) (src : Nat → Nat → Nat → K)
    (w : Nat → K) (nx ny nz na : Nat) (hfit : nx ≤ 2 ^ 32)
    (hmu : ∀ a < na, 0 < mu a ∧ 0 < eta a ∧ 0 < xi a)
    (hdx : ∀ i < nx, 0 < dx i) (hdy : ∀ j < ny, 0 < dy j) (hdz : ∀ k < nz, 0 < dz k)
    (hst : ∀ c < nx * ny * nz, 0 ≤ sigt c) (up : Bool) (bup) (hb : OnlyIncident 3 bup)
    (order : List Nat) (hord : order.Perm (List.range 8)) (s : St (Nat → Nat → K) K) :
    let s' := sweepWith order na
      (angle3 (mesh3 dd3 mu eta xi dx dy dz sigt nx ny) src w nx ny nz up bup) s
    let c := fun i j k => i + j * nx + k * nx * ny
    ∑ k ∈ range nz, ∑ j ∈ range ny, ∑ i ∈ range nx,
          dx i * dy j * dz k * sigt (c i j k) * s'.phi (c i j k) +
        ∑ o ∈ range 8, ∑ a ∈ range na, w a * leak3 mu eta xi dx dy dz nx ny nz s'.bdy o a =
      ∑ o ∈ range 8, ∑ a ∈ range na, w a * ∑ k ∈ range nz, ∑ j ∈ range ny, ∑ i ∈ range nx,
          dx i * dy j * dz k * src o a (c i j k) := by
  apply sweep3_balance _ mu eta xi dx dy dz sigt src w nx ny nz na hfit up bup hb order hord s
  intro a ha q i hi j hj k hk p
  obtain ⟨h1, h1', h1''⟩ := hmu a ha
  have h2 := hdx i hi
  have h2' := hdy j hj
  have h2'' := hdz k hk
  have h3 := hst (i + j * nx + k * nx * ny) (Detran.Mesh.idx_lt hi hj hk)
  exact C26_dd3_cell _ _ _ _ _ _ _ _ _ h2.ne' h2'.ne' h2''.ne' (by positivity)

/-- The identity (no boundary update) is an admissible boundary update, so the hypotheses are
    satisfiable; a 3-cell slab with a void, one angle per octant and an incident flux. -/
example : OnlyIncident (F := ℚ) 1 (fun b _ _ => b) := fun _ _ _ _ _ _ _ => rfl

example :
    let s' := sweepWith [0, 1] 1 (angle1 (mesh1 dd1 (fun _ => (1 / 2 : ℚ)) (fun _ => 1)
        (fun i => [1, 0, 2].getD i 0)) (fun _ _ _ => 1) (fun _ => 1) 3 false (fun b _ _ => b))
      ⟨fun f _ _ => if f = 0 then 3 else 0, fun _ => 0, fun _ _ _ => 0⟩
    s'.phi 0 = 23 / 6 ∧ leak1 (fun _ => 1 / 2) s'.bdy 0 0 = -5 / 3 := by
  decide +kernel

end sweep

end Detran.Sweep
