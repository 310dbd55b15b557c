import Verif.Model.Sweep
import Verif.Lemmas.Solver
import Verif.Props.Mesh
import Mathlib.Algebra.BigOperators.Ring.Finset
import Mathlib.Algebra.BigOperators.Intervals
import Mathlib.Data.List.Perm.Basic
import Mathlib.Tactic.LinearCombination
import Mathlib.Tactic.FieldSimp

/-! Helper lemmas for the sweep model. -/

namespace Detran.Sweep

open Detran.Solver Finset

variable {K : Type} [Field K]

/-! ### Visited indices -/

/-- Index reached after `p` steps. -/
def at_ (n dim o p : Nat) : Nat := if o ∈ posOctants dim then p else n - 1 - p

theorem walk_eq (s d : Int) (n : Nat) :
    walk s d n = (List.range n).map fun k : Nat => s + (k : Int) * d := by
  induction n generalizing s with
  | zero => rfl
  | succ n ih =>
      rw [walk, ih, List.range_succ_eq_map, List.map_cons, List.map_map]
      congr 1
      · simp
      · apply List.map_congr_left
        intro k _
        simp only [Function.comp_apply, Nat.succ_eq_add_one, Nat.cast_add, Nat.cast_one]
        ring

theorem walkU_eq (s d : Nat) (hs : s < 2 ^ 32) (n : Nat) :
    walkU s d n = (List.range n).map fun k => (s + k * d) % 2 ^ 32 := by
  induction n generalizing s with
  | zero => rfl
  | succ n ih =>
      rw [walkU, ih _ (Nat.mod_lt _ (by norm_num)), List.range_succ_eq_map, List.map_cons,
        List.map_map]
      congr 1
      · rw [Nat.zero_mul, Nat.add_zero, Nat.mod_eq_of_lt hs]
      · apply List.map_congr_left
        intro k _
        simp only [Function.comp_apply, Nat.succ_eq_add_one]
        rw [Nat.mod_add_mod]
        congr 1
        ring

theorem cells_eq (n dim o : Nat) : cells n dim o = (List.range n).map (at_ n dim o) := by
  unfold cells spaceRange
  rw [walk_eq, List.map_map]
  apply List.map_congr_left
  intro k hk
  rw [List.mem_range] at hk
  simp only [Function.comp_apply, at_]
  split_ifs with h
  · simp
  · simp only []
    omega

theorem cellsU_eq (n dim o : Nat) (hn : n ≤ 2 ^ 32) : cellsU n dim o = cells n dim o := by
  rw [cells_eq]
  unfold cellsU spaceRange
  rcases Nat.eq_zero_or_pos n with h0 | h0
  · subst h0; simp [walkU]
  rw [walkU_eq _ _ (by split_ifs <;> simp only [] <;> omega)]
  apply List.map_congr_left
  intro k hk
  rw [List.mem_range] at hk
  simp only [at_]
  split_ifs with h
  · simp only [Int.zero_emod]
    have e1 : ((1 : Int) % 2 ^ 32).toNat = 1 := by decide
    simp only [e1, Int.toNat_zero, Nat.mul_one, Nat.zero_add]
    exact Nat.mod_eq_of_lt (by omega)
  · have e1 : ((-1 : Int) % 2 ^ 32).toNat = 2 ^ 32 - 1 := by decide
    have e2 : (((n : Int) - 1) % 2 ^ 32).toNat = n - 1 := by omega
    simp only [e1, e2]
    have : n - 1 + k * (2 ^ 32 - 1) = (n - 1 - k) + k * 2 ^ 32 := by
      have : k * (2 ^ 32 - 1) + k = k * 2 ^ 32 := by
        rw [Nat.mul_sub, Nat.mul_one]; omega
      omega
    rw [this, Nat.add_mul_mod_self_right]
    exact Nat.mod_eq_of_lt (by omega)

theorem at_lt {n dim o p : Nat} (h : p < n) : at_ n dim o p < n := by
  unfold at_; split_ifs <;> omega

theorem at_inj {n dim o p q : Nat} (hp : p < n) (hq : q < n) (h : at_ n dim o p = at_ n dim o q) :
    p = q := by
  unfold at_ at h; split_ifs at h <;> omega

theorem at_at {n dim o p : Nat} (hp : p < n) : at_ n dim o (at_ n dim o p) = p := by
  unfold at_; split_ifs <;> omega

theorem mem_cells {n dim o c : Nat} : c ∈ cells n dim o ↔ c < n := by
  rw [cells_eq, List.mem_map]
  constructor
  · rintro ⟨p, hp, rfl⟩; exact at_lt (List.mem_range.1 hp)
  · intro h; exact ⟨at_ n dim o c, List.mem_range.2 (at_lt h), at_at h⟩

theorem cells_nodup (n dim o : Nat) : (cells n dim o).Nodup := by
  rw [cells_eq]
  exact List.Nodup.map_on (fun p hp q hq h =>
    at_inj (List.mem_range.1 hp) (List.mem_range.1 hq) h) List.nodup_range

theorem cells_perm (n dim o : Nat) : (cells n dim o).Perm (List.range n) := by
  rw [List.perm_ext_iff_of_nodup (cells_nodup n dim o) List.nodup_range]
  intro a; rw [mem_cells, List.mem_range]

theorem cells_sum {M : Type} [AddCommMonoid M] (n dim o : Nat) (f : Nat → M) :
    ((cells n dim o).map f).sum = ∑ i ∈ range n, f i := by
  rw [((cells_perm n dim o).map f).sum_eq]
  rfl

/-! ### Weighted sums under updates -/

theorem sum_upd (N : Nat) (W f : Nat → K) (c : Nat) (v : K) (hc : c < N) :
    ∑ i ∈ range N, W i * upd f c v i = ∑ i ∈ range N, W i * f i + W c * (v - f c) := by
  have : ∀ i ∈ range N, W i * upd f c v i = W i * f i + (if i = c then W c * (v - f c) else 0) := by
    intro i _
    unfold upd
    split_ifs with h
    · subst h; ring
    · ring
  rw [sum_congr rfl this, sum_add_distrib, sum_ite_eq' (range N) c, if_pos (mem_range.2 hc)]

theorem sum_upd2 (N M : Nat) (W : Nat → Nat → K) (f : Nat → Nat → K) (c d : Nat) (v : K)
    (hc : c < N) (hd : d < M) :
    ∑ i ∈ range N, ∑ j ∈ range M, W i j * upd2 f c d v i j =
      ∑ i ∈ range N, ∑ j ∈ range M, W i j * f i j + W c d * (v - f c d) := by
  have : ∀ i ∈ range N, ∑ j ∈ range M, W i j * upd2 f c d v i j =
      ∑ j ∈ range M, W i j * f i j + (if i = c then W c d * (v - f c d) else 0) := by
    intro i _
    unfold upd2
    by_cases h : i = c
    · subst h
      rw [upd_same, if_pos rfl, sum_upd M (W i) (f i) d v hd]
    · rw [upd_ne _ _ h, if_neg h, add_zero]
  rw [sum_congr rfl this, sum_add_distrib, sum_ite_eq' (range N) c, if_pos (mem_range.2 hc)]

/-! ### Balance of the directional sweeps -/

/-- 1-D row. -/
theorem line1_balance (eq : Nat → K → K × K) (up : Bool) (w mu : K) (n : Nat)
    (dx st q : Nat → K)
    (hb : ∀ i < n, ∀ p, st i * (eq i p).1 * dx i + mu * ((eq i p).2 - p) = q i * dx i)
    (l : List Nat) (hl : ∀ i ∈ l, i < n) (r : Run K K) :
    ∑ c ∈ range n, (dx c * st c) * (l.foldl (cell1 eq up w) r).phi c +
        w * (mu * (l.foldl (cell1 eq up w) r).edge) =
      ∑ c ∈ range n, (dx c * st c) * r.phi c + w * (mu * r.edge) +
        w * (l.map fun i => dx i * q i).sum := by
  induction l generalizing r with
  | nil => simp
  | cons i l ih =>
      rw [List.foldl_cons, ih (fun k hk => hl k (List.mem_cons_of_mem _ hk)), List.map_cons,
        List.sum_cons]
      have hi := hl i List.mem_cons_self
      have e := hb i hi r.edge
      simp only [cell1, record]
      rw [sum_upd n _ _ i _ hi]
      linear_combination w * e

/-- The x loop of a 2-D row. -/
theorem cell2_balance (eq : Nat → Nat → K × K → K × (K × K)) (up : Bool) (w mu eta : K)
    (nx ny : Nat) (dx dy : Nat → K) (st q : Nat → K) (j : Nat) (hj : j < ny)
    (hb : ∀ i < nx, ∀ p, st (i + j * nx) * (eq i j p).1 * (dx i * dy j) +
      mu * dy j * ((eq i j p).2.1 - p.1) + eta * dx i * ((eq i j p).2.2 - p.2) =
        q (i + j * nx) * (dx i * dy j))
    (W : Nat → K) (hW : ∀ i < nx, W (i + j * nx) = dx i * dy j * st (i + j * nx))
    (l : List Nat) (hl : ∀ i ∈ l, i < nx) (r : Run (Edge2 K) K) :
    let r' := l.foldl (cell2 eq up w nx j) r
    ∑ c ∈ range (nx * ny), W c * r'.phi c + w * (mu * (dy j * r'.edge.cur) +
        eta * ∑ i ∈ range nx, dx i * r'.edge.h i) =
      ∑ c ∈ range (nx * ny), W c * r.phi c + w * (mu * (dy j * r.edge.cur) +
        eta * ∑ i ∈ range nx, dx i * r.edge.h i) +
        w * (l.map fun i => dx i * dy j * q (i + j * nx)).sum ∧
    r'.edge.v = r.edge.v := by
  induction l generalizing r with
  | nil => simp
  | cons i l ih =>
      have hi := hl i List.mem_cons_self
      obtain ⟨h1, h2⟩ := ih (fun k hk => hl k (List.mem_cons_of_mem _ hk)) (cell2 eq up w nx j r i)
      intro r'
      have er : r' = l.foldl (cell2 eq up w nx j) (cell2 eq up w nx j r i) := rfl
      rw [er]
      refine ⟨?_, by rw [h2]; rfl⟩
      rw [h1, List.map_cons, List.sum_cons]
      have e := hb i hi (r.edge.cur, r.edge.h i)
      have hc : i + j * nx < nx * ny := by
        have := Detran.Mesh.idx_row_lt (ny := ny) hi hj
        exact this
      simp only [cell2, record]
      rw [sum_upd (nx * ny) _ _ _ _ hc, sum_upd nx _ _ i _ hi, hW i hi]
      linear_combination w * e

/-- The y loop. -/
theorem row2_balance (eq : Nat → Nat → K × K → K × (K × K)) (up : Bool) (w mu eta : K)
    (nx ny : Nat) (dx dy : Nat → K) (st q : Nat → K)
    (hb : ∀ i < nx, ∀ j < ny, ∀ p, st (i + j * nx) * (eq i j p).1 * (dx i * dy j) +
      mu * dy j * ((eq i j p).2.1 - p.1) + eta * dx i * ((eq i j p).2.2 - p.2) =
        q (i + j * nx) * (dx i * dy j))
    (W : Nat → K) (hW : ∀ i < nx, ∀ j < ny, W (i + j * nx) = dx i * dy j * st (i + j * nx))
    (is js : List Nat) (hi : ∀ i ∈ is, i < nx) (hj : ∀ j ∈ js, j < ny) (r : Run (Edge2 K) K) :
    let r' := js.foldl (row2 eq up w nx is) r
    ∑ c ∈ range (nx * ny), W c * r'.phi c + w * (mu * ∑ j ∈ range ny, dy j * r'.edge.v j +
        eta * ∑ i ∈ range nx, dx i * r'.edge.h i) =
      ∑ c ∈ range (nx * ny), W c * r.phi c + w * (mu * ∑ j ∈ range ny, dy j * r.edge.v j +
        eta * ∑ i ∈ range nx, dx i * r.edge.h i) +
        w * (js.map fun j => (is.map fun i => dx i * dy j * q (i + j * nx)).sum).sum := by
  induction js generalizing r with
  | nil => simp
  | cons j js ih =>
      have hjn := hj j List.mem_cons_self
      intro r'
      have er : r' = js.foldl (row2 eq up w nx is) (row2 eq up w nx is r j) := rfl
      have h1 := ih (fun k hk => hj k (List.mem_cons_of_mem _ hk)) (row2 eq up w nx is r j)
      rw [er]
      simp only [] at h1
      rw [h1, List.map_cons, List.sum_cons]
      obtain ⟨h2, h3⟩ := cell2_balance eq up w mu eta nx ny dx dy st q j hjn
        (fun i hi' p => hb i hi' j hjn p) W (fun i hi' => hW i hi' j hjn) is hi
        { r with edge := { r.edge with cur := r.edge.v j } }
      simp only [row2]
      simp only [] at h2 h3
      rw [sum_upd ny _ _ j _ hjn]
      rw [h3]
      linear_combination h2

/-- The x loop of a 3-D row. -/
theorem cell3_balance (eq : Nat → Nat → Nat → K × K × K → K × (K × K × K)) (up : Bool)
    (w mu eta xi : K) (nx ny nz : Nat) (dx dy dz : Nat → K) (st q : Nat → K) (k j : Nat)
    (hk : k < nz) (hj : j < ny)
    (hb : ∀ i < nx, ∀ p, st (i + j * nx + k * nx * ny) * (eq i j k p).1 * (dx i * dy j * dz k) +
      mu * (dy j * dz k) * ((eq i j k p).2.1 - p.1) +
      eta * (dx i * dz k) * ((eq i j k p).2.2.1 - p.2.1) +
      xi * (dx i * dy j) * ((eq i j k p).2.2.2 - p.2.2) =
        q (i + j * nx + k * nx * ny) * (dx i * dy j * dz k))
    (W : Nat → K) (hW : ∀ i < nx, W (i + j * nx + k * nx * ny) =
      dx i * dy j * dz k * st (i + j * nx + k * nx * ny))
    (l : List Nat) (hl : ∀ i ∈ l, i < nx) (r : Run (Edge3 K) K) :
    let r' := l.foldl (cell3 eq up w nx ny k j) r
    ∑ c ∈ range (nx * ny * nz), W c * r'.phi c + w * (mu * (dy j * dz k * r'.edge.cur) +
        eta * ∑ k ∈ range nz, ∑ i ∈ range nx, dx i * dz k * r'.edge.xz k i +
        xi * ∑ j ∈ range ny, ∑ i ∈ range nx, dx i * dy j * r'.edge.xy j i) =
      ∑ c ∈ range (nx * ny * nz), W c * r.phi c + w * (mu * (dy j * dz k * r.edge.cur) +
        eta * ∑ k ∈ range nz, ∑ i ∈ range nx, dx i * dz k * r.edge.xz k i +
        xi * ∑ j ∈ range ny, ∑ i ∈ range nx, dx i * dy j * r.edge.xy j i) +
        w * (l.map fun i => dx i * dy j * dz k * q (i + j * nx + k * nx * ny)).sum ∧
    r'.edge.yz = r.edge.yz := by
  induction l generalizing r with
  | nil => simp
  | cons i l ih =>
      have hi := hl i List.mem_cons_self
      obtain ⟨h1, h2⟩ := ih (fun k hk => hl k (List.mem_cons_of_mem _ hk))
        (cell3 eq up w nx ny k j r i)
      intro r'
      have er : r' = l.foldl (cell3 eq up w nx ny k j) (cell3 eq up w nx ny k j r i) := rfl
      rw [er]
      refine ⟨?_, by rw [h2]; rfl⟩
      rw [h1, List.map_cons, List.sum_cons]
      have e := hb i hi (r.edge.cur, r.edge.xz k i, r.edge.xy j i)
      have hc : i + j * nx + k * nx * ny < nx * ny * nz := Detran.Mesh.idx_lt hi hj hk
      simp only [cell3, record]
      rw [sum_upd (nx * ny * nz) _ _ _ _ hc,
        sum_upd2 nz nx (fun k i => dx i * dz k) _ k i _ hk hi,
        sum_upd2 ny nx (fun j i => dx i * dy j) _ j i _ hj hi, hW i hi]
      linear_combination w * e

/-- The y loop of a 3-D plane. -/
theorem row3_balance (eq : Nat → Nat → Nat → K × K × K → K × (K × K × K)) (up : Bool)
    (w mu eta xi : K) (nx ny nz : Nat) (dx dy dz : Nat → K) (st q : Nat → K) (k : Nat)
    (hk : k < nz)
    (hb : ∀ i < nx, ∀ j < ny, ∀ p,
      st (i + j * nx + k * nx * ny) * (eq i j k p).1 * (dx i * dy j * dz k) +
      mu * (dy j * dz k) * ((eq i j k p).2.1 - p.1) +
      eta * (dx i * dz k) * ((eq i j k p).2.2.1 - p.2.1) +
      xi * (dx i * dy j) * ((eq i j k p).2.2.2 - p.2.2) =
        q (i + j * nx + k * nx * ny) * (dx i * dy j * dz k))
    (W : Nat → K) (hW : ∀ i < nx, ∀ j < ny, W (i + j * nx + k * nx * ny) =
      dx i * dy j * dz k * st (i + j * nx + k * nx * ny))
    (is js : List Nat) (hi : ∀ i ∈ is, i < nx) (hj : ∀ j ∈ js, j < ny) (r : Run (Edge3 K) K) :
    let r' := js.foldl (row3 eq up w nx ny is k) r
    ∑ c ∈ range (nx * ny * nz), W c * r'.phi c +
        w * (mu * ∑ k ∈ range nz, ∑ j ∈ range ny, dy j * dz k * r'.edge.yz k j +
        eta * ∑ k ∈ range nz, ∑ i ∈ range nx, dx i * dz k * r'.edge.xz k i +
        xi * ∑ j ∈ range ny, ∑ i ∈ range nx, dx i * dy j * r'.edge.xy j i) =
      ∑ c ∈ range (nx * ny * nz), W c * r.phi c +
        w * (mu * ∑ k ∈ range nz, ∑ j ∈ range ny, dy j * dz k * r.edge.yz k j +
        eta * ∑ k ∈ range nz, ∑ i ∈ range nx, dx i * dz k * r.edge.xz k i +
        xi * ∑ j ∈ range ny, ∑ i ∈ range nx, dx i * dy j * r.edge.xy j i) +
        w * (js.map fun j => (is.map fun i =>
          dx i * dy j * dz k * q (i + j * nx + k * nx * ny)).sum).sum := by
  induction js generalizing r with
  | nil => simp
  | cons j js ih =>
      have hjn := hj j List.mem_cons_self
      intro r'
      have er : r' = js.foldl (row3 eq up w nx ny is k) (row3 eq up w nx ny is k r j) := rfl
      have h1 := ih (fun k hk => hj k (List.mem_cons_of_mem _ hk)) (row3 eq up w nx ny is k r j)
      rw [er]
      simp only [] at h1
      rw [h1, List.map_cons, List.sum_cons]
      obtain ⟨h2, h3⟩ := cell3_balance eq up w mu eta xi nx ny nz dx dy dz st q k j hk hjn
        (fun i hi' p => hb i hi' j hjn p) W (fun i hi' => hW i hi' j hjn) is hi
        { r with edge := { r.edge with cur := r.edge.yz k j } }
      simp only [row3]
      simp only [] at h2 h3
      rw [sum_upd2 nz ny (fun k j => dy j * dz k) _ k j _ hk hjn]
      rw [h3]
      linear_combination h2

/-- The z loop. -/
theorem plane3_balance (eq : Nat → Nat → Nat → K × K × K → K × (K × K × K)) (up : Bool)
    (w mu eta xi : K) (nx ny nz : Nat) (dx dy dz : Nat → K) (st q : Nat → K)
    (hb : ∀ i < nx, ∀ j < ny, ∀ k < nz, ∀ p,
      st (i + j * nx + k * nx * ny) * (eq i j k p).1 * (dx i * dy j * dz k) +
      mu * (dy j * dz k) * ((eq i j k p).2.1 - p.1) +
      eta * (dx i * dz k) * ((eq i j k p).2.2.1 - p.2.1) +
      xi * (dx i * dy j) * ((eq i j k p).2.2.2 - p.2.2) =
        q (i + j * nx + k * nx * ny) * (dx i * dy j * dz k))
    (W : Nat → K) (hW : ∀ i < nx, ∀ j < ny, ∀ k < nz, W (i + j * nx + k * nx * ny) =
      dx i * dy j * dz k * st (i + j * nx + k * nx * ny))
    (is js ks : List Nat) (hi : ∀ i ∈ is, i < nx) (hj : ∀ j ∈ js, j < ny)
    (hk : ∀ k ∈ ks, k < nz) (r : Run (Edge3 K) K) :
    let r' := ks.foldl (plane3 eq up w nx ny is js) r
    ∑ c ∈ range (nx * ny * nz), W c * r'.phi c +
        w * (mu * ∑ k ∈ range nz, ∑ j ∈ range ny, dy j * dz k * r'.edge.yz k j +
        eta * ∑ k ∈ range nz, ∑ i ∈ range nx, dx i * dz k * r'.edge.xz k i +
        xi * ∑ j ∈ range ny, ∑ i ∈ range nx, dx i * dy j * r'.edge.xy j i) =
      ∑ c ∈ range (nx * ny * nz), W c * r.phi c +
        w * (mu * ∑ k ∈ range nz, ∑ j ∈ range ny, dy j * dz k * r.edge.yz k j +
        eta * ∑ k ∈ range nz, ∑ i ∈ range nx, dx i * dz k * r.edge.xz k i +
        xi * ∑ j ∈ range ny, ∑ i ∈ range nx, dx i * dy j * r.edge.xy j i) +
        w * (ks.map fun k => (js.map fun j => (is.map fun i =>
          dx i * dy j * dz k * q (i + j * nx + k * nx * ny)).sum).sum).sum := by
  induction ks generalizing r with
  | nil => simp
  | cons k ks ih =>
      have hkn := hk k List.mem_cons_self
      intro r'
      have er : r' = ks.foldl (plane3 eq up w nx ny is js) (plane3 eq up w nx ny is js r k) := rfl
      have h1 := ih (fun k hk' => hk k (List.mem_cons_of_mem _ hk')) (plane3 eq up w nx ny is js r k)
      rw [er]
      simp only [] at h1
      rw [h1, List.map_cons, List.sum_cons]
      have h2 := row3_balance eq up w mu eta xi nx ny nz dx dy dz st q k hkn
        (fun i hi' j hj' p => hb i hi' j hj' k hkn p) W (fun i hi' j hj' => hW i hi' j hj' k hkn)
        is js hi hj r
      simp only [plane3]
      simp only [] at h2
      linear_combination h2

/-! ### The octant and angle loops -/

/-- The pairs (octant, angle) in sweep order. -/
def pairs (order : List Nat) (na : Nat) : List (Nat × Nat) :=
  order.flatMap fun o => (List.range na).map fun a => (o, a)

theorem sweepWith_eq {F : Type} (order : List Nat) (na : Nat)
    (step : St F K → Nat → Nat → St F K) (s : St F K) :
    sweepWith order na step s =
      (pairs order na).foldl (fun s p => step s p.1 p.2) { s with phi := fun _ => 0 } := by
  unfold sweepWith pairs
  rw [List.foldl_flatMap]
  congr 1
  funext s o
  rw [List.foldl_map]

theorem mem_pairs {order : List Nat} {na : Nat} {p : Nat × Nat} :
    p ∈ pairs order na ↔ p.1 ∈ order ∧ p.2 < na := by
  unfold pairs
  rw [List.mem_flatMap]
  constructor
  · rintro ⟨o, ho, h⟩
    rw [List.mem_map] at h
    obtain ⟨a, ha, rfl⟩ := h
    exact ⟨ho, List.mem_range.1 ha⟩
  · rintro ⟨h1, h2⟩
    exact ⟨p.1, h1, List.mem_map.2 ⟨p.2, List.mem_range.2 h2, rfl⟩⟩

theorem pairs_nodup {order : List Nat} (h : order.Nodup) (na : Nat) : (pairs order na).Nodup := by
  unfold pairs
  rw [List.nodup_flatMap]
  refine ⟨fun o _ => List.Nodup.map_on (fun a _ b _ e => (Prod.mk.inj e).2) List.nodup_range, ?_⟩
  refine h.imp_of_mem ?_
  intro a b _ _ hab p hp hq
  rw [List.mem_map] at hp hq
  obtain ⟨x, _, rfl⟩ := hp
  obtain ⟨y, _, e⟩ := hq
  exact hab (Prod.mk.inj e).1.symm

theorem pairs_sum {M : Type} [AddCommMonoid M] (order : List Nat) (na no : Nat)
    (hp : order.Perm (List.range no)) (f : Nat → Nat → M) :
    ((pairs order na).map fun p => f p.1 p.2).sum = ∑ o ∈ range no, ∑ a ∈ range na, f o a := by
  unfold pairs
  rw [List.map_flatMap]
  have : ∀ l : List Nat, ((l.flatMap fun o =>
      ((List.range na).map fun a => (o, a)).map fun p => f p.1 p.2)).sum =
      (l.map fun o => ∑ a ∈ range na, f o a).sum := by
    intro l
    induction l with
    | nil => rfl
    | cons o l ih =>
        rw [List.flatMap_cons, List.sum_append, ih, List.map_cons, List.sum_cons, List.map_map]
        rfl
  rw [this, (hp.map _).sum_eq]
  rfl

/-- Accumulation over steps that each touch only their own key. -/
theorem foldl_keyed {S X M : Type} [AddCommMonoid M] (step : S → Nat → Nat → S)
    (key : S → Nat → Nat → X) (F : S → M) (G : Nat → Nat → X → M) :
    ∀ (l : List (Nat × Nat)), l.Nodup →
    (∀ p ∈ l, ∀ s, F (step s p.1 p.2) = F s + G p.1 p.2 (key (step s p.1 p.2) p.1 p.2)) →
    (∀ p ∈ l, ∀ s q, q ≠ p → key (step s p.1 p.2) q.1 q.2 = key s q.1 q.2) → ∀ s,
    F (l.foldl (fun s p => step s p.1 p.2) s) =
      F s + (l.map fun p => G p.1 p.2
        (key (l.foldl (fun s p => step s p.1 p.2) s) p.1 p.2)).sum := by
  intro l
  induction l using List.reverseRecOn with
  | nil => intro _ _ _ s; simp
  | append_singleton l p ih =>
      intro hn h1 h2 s
      have hn' := List.nodup_append.1 hn
      have hp : p ∈ l ++ [p] := by simp
      rw [List.foldl_append, List.foldl_cons, List.foldl_nil, h1 p hp,
        ih hn'.1 (fun q hq => h1 q (List.mem_append_left _ hq))
          (fun q hq => h2 q (List.mem_append_left _ hq)), List.map_append, List.sum_append,
        List.map_cons, List.map_nil, List.sum_cons, List.sum_nil, add_zero, add_assoc]
      congr 2
      apply congrArg
      apply List.map_congr_left
      intro q hq
      rw [h2 p hp _ q]
      rintro rfl
      exact hn'.2.2 q hq q (by simp) rfl

/-- A key written only by its own step keeps the value that step gave it. -/
theorem foldl_key_last {S X : Type} (step : S → Nat → Nat → S) (key : S → Nat → Nat → X)
    (P : Nat → Nat → X → Prop) :
    ∀ (l : List (Nat × Nat)), l.Nodup →
    (∀ p ∈ l, ∀ s, P p.1 p.2 (key (step s p.1 p.2) p.1 p.2)) →
    (∀ p ∈ l, ∀ s q, q ≠ p → key (step s p.1 p.2) q.1 q.2 = key s q.1 q.2) → ∀ s,
    ∀ p ∈ l, P p.1 p.2 (key (l.foldl (fun s p => step s p.1 p.2) s) p.1 p.2) := by
  intro l
  induction l using List.reverseRecOn with
  | nil => intro _ _ _ s p hp; simp at hp
  | append_singleton l p ih =>
      intro hn h1 h2 s q hq
      have hn' := List.nodup_append.1 hn
      have hp : p ∈ l ++ [p] := by simp
      rw [List.foldl_append, List.foldl_cons, List.foldl_nil]
      by_cases e : q = p
      · subst e; exact h1 q hp _
      · rw [h2 p hp _ q e]
        refine ih hn'.1 (fun q hq => h1 q (List.mem_append_left _ hq))
          (fun q hq => h2 q (List.mem_append_left _ hq)) s q ?_
        rcases List.mem_append.1 hq with h | h
        · exact h
        · simp at h; exact absurd h e

/-! ### The directional sweeps solve the cell equations -/

theorem row_inj {nx i i' j j' : Nat} (hi : i < nx) (hi' : i' < nx)
    (h : i + j * nx = i' + j' * nx) : i = i' ∧ j = j' := by
  have h1 : (i + j * nx) % nx = i := by rw [Nat.add_mul_mod_self_right, Nat.mod_eq_of_lt hi]
  have h2 : (i' + j' * nx) % nx = i' := by rw [Nat.add_mul_mod_self_right, Nat.mod_eq_of_lt hi']
  have e : i = i' := by rw [← h1, h, h2]
  refine ⟨e, ?_⟩
  subst e
  exact Nat.eq_of_mul_eq_mul_right (by omega : 0 < nx) (by omega)

theorem box_inj {nx ny i i' j j' k k' : Nat} (hi : i < nx) (hi' : i' < nx) (hj : j < ny)
    (hj' : j' < ny) (h : i + j * nx + k * nx * ny = i' + j' * nx + k' * nx * ny) :
    i = i' ∧ j = j' ∧ k = k' := by
  have e : ∀ i j k : Nat, i + j * nx + k * nx * ny = i + (j + k * ny) * nx := by
    intro i j k; ring
  rw [e, e] at h
  obtain ⟨h1, h2⟩ := row_inj hi hi' h
  obtain ⟨h3, h4⟩ := row_inj hj hj' h2
  exact ⟨h1, h3, h4⟩

/-- Edge fluxes of a 1-D row by upwind position. -/
def edge1 (E : Nat → K → K × K) (e0 : K) : Nat → K
  | 0 => e0
  | p + 1 => (E p (edge1 E e0 p)).2

theorem line1_sol (eq : Nat → K → K × K) (up : Bool) (w : K) (n : Nat) (f : Nat → Nat)
    (hf : ∀ p < n, ∀ q < n, f p = f q → p = q) (r : Run K K) : ∀ m ≤ n,
    let E := fun p => eq (f p)
    let r' := ((List.range m).map f).foldl (cell1 eq up w) r
    r'.edge = edge1 E r.edge m ∧
    (∀ p < m, r'.phi (f p) = r.phi (f p) + w * (E p (edge1 E r.edge p)).1 ∧
      r'.psi (f p) = if up then (E p (edge1 E r.edge p)).1 else r.psi (f p)) ∧
    (∀ c, (∀ p < m, f p ≠ c) → r'.phi c = r.phi c ∧ r'.psi c = r.psi c) := by
  intro m
  induction m with
  | zero => intro _; simp [edge1]
  | succ m ih =>
      intro hm
      obtain ⟨h1, h2, h3⟩ := ih (by omega)
      intro E r'
      have er : r' = cell1 eq up w (((List.range m).map f).foldl (cell1 eq up w) r) (f m) := by
        show ((List.range (m + 1)).map f).foldl (cell1 eq up w) r = _
        rw [List.range_succ, List.map_append, List.foldl_append]; rfl
      simp only [] at h1 h2 h3
      rw [er]
      simp only [cell1, record]
      rw [h1]
      refine ⟨rfl, ?_, ?_⟩
      · intro p hp
        have hu := h3 (f m) (fun q hq e => by
          have := hf q (by omega) m (by omega) e; omega)
        rcases Nat.lt_or_ge p m with hpm | hpm
        · have hne : f p ≠ f m := fun e => by
            have := hf p (by omega) m (by omega) e; omega
          rw [upd_ne _ _ hne]
          refine ⟨(h2 p hpm).1, ?_⟩
          have := (h2 p hpm).2
          cases up
          · simpa using this
          · simp only [if_true] at this ⊢
            rw [upd_ne _ _ hne]; exact this
        · obtain rfl : p = m := by omega
          rw [upd_same, hu.1]
          refine ⟨rfl, ?_⟩
          cases up
          · simpa using hu.2
          · simp [upd_same, E]
      · intro c hc
        have hcm : c ≠ f m := fun e => hc m (by omega) e.symm
        rw [upd_ne _ _ hcm]
        have := h3 c (fun p hp => hc p (by omega))
        refine ⟨this.1, ?_⟩
        cases up
        · simpa using this.2
        · simp only [if_true]; rw [upd_ne _ _ hcm]; exact this.2

/-- Vertical fluxes along a row by upwind position. -/
def rowV (E : Nat → K × K → K × (K × K)) (h : Nat → K) (v0 : K) : Nat → K
  | 0 => v0
  | p + 1 => (E p (rowV E h v0 p, h p)).2.1

/-- Horizontal fluxes below row `q`. -/
def solH (E : Nat → Nat → K × K → K × (K × K)) (v0 h0 : Nat → K) : Nat → Nat → K
  | 0 => h0
  | q + 1 => fun p =>
      (E p q (rowV (fun p => E p q) (solH E v0 h0 q) (v0 q) p, solH E v0 h0 q p)).2.2

theorem cell2_sol (eq : Nat → Nat → K × K → K × (K × K)) (up : Bool) (w : K) (nx j : Nat)
    (f : Nat → Nat) (hf : ∀ p < nx, ∀ q < nx, f p = f q → p = q)
    (r : Run (Edge2 K) K) : ∀ m ≤ nx,
    let E := fun p => eq (f p) j
    let h := fun p => r.edge.h (f p)
    let r' := ((List.range m).map f).foldl (cell2 eq up w nx j) r
    let V := rowV E h r.edge.cur
    r'.edge.cur = V m ∧ r'.edge.v = r.edge.v ∧
    (∀ p < m, r'.edge.h (f p) = (E p (V p, h p)).2.2 ∧
      r'.phi (f p + j * nx) = r.phi (f p + j * nx) + w * (E p (V p, h p)).1 ∧
      r'.psi (f p + j * nx) = if up then (E p (V p, h p)).1 else r.psi (f p + j * nx)) ∧
    (∀ c, (∀ p < m, f p ≠ c) → r'.edge.h c = r.edge.h c) ∧
    (∀ c, (∀ p < m, f p + j * nx ≠ c) → r'.phi c = r.phi c ∧ r'.psi c = r.psi c) := by
  intro m
  induction m with
  | zero => intro _; simp [rowV]
  | succ m ih =>
      intro hm
      obtain ⟨h1, h2, h3, h4, h5⟩ := ih (by omega)
      intro E h r' V
      have er : r' = cell2 eq up w nx j (((List.range m).map f).foldl (cell2 eq up w nx j) r)
          (f m) := by
        show ((List.range (m + 1)).map f).foldl (cell2 eq up w nx j) r = _
        rw [List.range_succ, List.map_append, List.foldl_append]; rfl
      simp only [] at h1 h2 h3 h4 h5
      have hfm : ∀ p < m, f p ≠ f m := fun p hp e => by
        have := hf p (by omega) m (by omega) e; omega
      have hh := h4 (f m) hfm
      rw [er]
      simp only [cell2, record]
      rw [h1, h2, hh]
      refine ⟨rfl, rfl, ?_, ?_, ?_⟩
      · intro p hp
        have hu := h5 (f m + j * nx) (fun q hq e => hfm q hq (by omega))
        rcases Nat.lt_or_ge p m with hpm | hpm
        · have hne := hfm p hpm
          have hne' : f p + j * nx ≠ f m + j * nx := by omega
          rw [upd_ne _ _ hne, upd_ne _ _ hne']
          obtain ⟨k1, k2, k3⟩ := h3 p hpm
          refine ⟨k1, k2, ?_⟩
          cases up
          · simpa using k3
          · simp only [if_true] at k3 ⊢
            rw [upd_ne _ _ hne']; exact k3
        · obtain rfl : p = m := by omega
          rw [upd_same, upd_same, hu.1]
          refine ⟨rfl, rfl, ?_⟩
          cases up
          · simpa using hu.2
          · simp [upd_same, E, V, h]
      · intro c hc
        rw [upd_ne _ _ (fun e => hc m (by omega) e.symm)]
        exact h4 c (fun p hp => hc p (by omega))
      · intro c hc
        have hcm : c ≠ f m + j * nx := fun e => hc m (by omega) e.symm
        rw [upd_ne _ _ hcm]
        have := h5 c (fun p hp => hc p (by omega))
        refine ⟨this.1, ?_⟩
        cases up
        · simpa using this.2
        · simp only [if_true]; rw [upd_ne _ _ hcm]; exact this.2

theorem rowV_congr (E : Nat → K × K → K × (K × K)) (h h' : Nat → K) (v : K) (n : Nat)
    (hh : ∀ p < n, h p = h' p) : rowV E h v n = rowV E h' v n := by
  induction n with
  | zero => rfl
  | succ n ih => rw [rowV, rowV, ih (fun p hp => hh p (by omega)), hh n (by omega)]

theorem row2_sol (eq : Nat → Nat → K × K → K × (K × K)) (up : Bool) (w : K) (nx ny : Nat)
    (f g : Nat → Nat) (hf : ∀ p < nx, ∀ q < nx, f p = f q → p = q) (hfn : ∀ p < nx, f p < nx)
    (hg : ∀ p < ny, ∀ q < ny, g p = g q → p = q)
    (r : Run (Edge2 K) K) : ∀ m ≤ ny,
    let E := fun p q => eq (f p) (g q)
    let v0 := fun q => r.edge.v (g q)
    let H := solH E v0 (fun p => r.edge.h (f p))
    let V := fun q => rowV (fun p => E p q) (H q) (v0 q)
    let r' := ((List.range m).map g).foldl (row2 eq up w nx ((List.range nx).map f)) r
    (∀ p < nx, r'.edge.h (f p) = H m p) ∧
    (∀ q < m, r'.edge.v (g q) = V q nx) ∧
    (∀ c, (∀ q < m, g q ≠ c) → r'.edge.v c = r.edge.v c) ∧
    (∀ p < nx, ∀ q < m,
      r'.phi (f p + g q * nx) = r.phi (f p + g q * nx) + w * (E p q (V q p, H q p)).1 ∧
      r'.psi (f p + g q * nx) =
        if up then (E p q (V q p, H q p)).1 else r.psi (f p + g q * nx)) ∧
    (∀ c, (∀ p < nx, ∀ q < m, f p + g q * nx ≠ c) → r'.phi c = r.phi c ∧ r'.psi c = r.psi c) := by
  intro m
  induction m with
  | zero => intro _; simp [solH]
  | succ m ih =>
      intro hm
      obtain ⟨h1, h2, h3, h4, h5⟩ := ih (by omega)
      intro E v0 H V r'
      set r0 := ((List.range m).map g).foldl (row2 eq up w nx ((List.range nx).map f)) r with hr0
      have er : r' = row2 eq up w nx ((List.range nx).map f) r0 (g m) := by
        show ((List.range (m + 1)).map g).foldl (row2 eq up w nx ((List.range nx).map f)) r = _
        rw [List.range_succ, List.map_append, List.foldl_append]; rfl
      have hgm : ∀ q < m, g q ≠ g m := fun q hq e => by
        have := hg q (by omega) m (by omega) e; omega
      have hvm : r0.edge.v (g m) = v0 m := h3 (g m) hgm
      obtain ⟨k1, k2, k3, k4, k5⟩ := cell2_sol eq up w nx (g m) f hf
        { r0 with edge := { r0.edge with cur := r0.edge.v (g m) } } nx (le_refl _)
      simp only [] at k1 k2 k3 k4 k5
      have hrow : ∀ p ≤ nx, rowV (fun p => eq (f p) (g m)) (fun p => r0.edge.h (f p))
          (r0.edge.v (g m)) p = V m p := by
        intro p hp
        rw [hvm]
        exact rowV_congr _ _ _ _ _ (fun p' hp' => h1 p' (by omega))
      rw [er]
      simp only [row2]
      rw [k1, k2, hrow nx (le_refl _)]
      refine ⟨?_, ?_, ?_, ?_, ?_⟩
      · intro p hp
        rw [(k3 p hp).1, hrow p (by omega), h1 p hp]
        rfl
      · intro q hq
        rcases Nat.lt_or_ge q m with hqm | hqm
        · rw [upd_ne _ _ (hgm q hqm)]; exact h2 q hqm
        · obtain rfl : q = m := by omega
          rw [upd_same]
      · intro c hc
        rw [upd_ne _ _ (fun e => hc m (by omega) e.symm)]
        exact h3 c (fun q hq => hc q (by omega))
      · intro p hp q hq
        rcases Nat.lt_or_ge q m with hqm | hqm
        · have := k5 (f p + g q * nx) (fun p' hp' e =>
            hgm q hqm (row_inj (hfn p' hp') (hfn p hp) e).2.symm)
          rw [this.1, this.2]
          exact h4 p hp q hqm
        · obtain rfl : q = m := by omega
          have hu := h5 (f p + g q * nx) (fun p' hp' q' hq' e =>
            hgm q' hq' (row_inj (hfn p' hp') (hfn p hp) e).2)
          obtain ⟨_, j2, j3⟩ := k3 p hp
          rw [j2, j3, hrow p (by omega), h1 p hp, hu.1, hu.2]
          exact ⟨rfl, rfl⟩
      · intro c hc
        have := k5 c (fun p hp => hc p hp m (by omega))
        rw [this.1, this.2]
        exact h5 c (fun p hp q hq => hc p hp q (by omega))

/-! The 3-D sweep. -/

theorem upd2_same (m : Nat → Nat → K) (k i : Nat) (v : K) : upd2 m k i v k i = v := by
  simp [upd2, upd]

theorem upd2_ne (m : Nat → Nat → K) {k i k' i' : Nat} (v : K) (h : ¬ (k' = k ∧ i' = i)) :
    upd2 m k i v k' i' = m k' i' := by
  unfold upd2
  by_cases h1 : k' = k
  · subst h1
    rw [upd_same, upd_ne _ _ (fun e => h ⟨rfl, e⟩)]
  · rw [upd_ne _ _ h1]

/-- Fluxes travelling along x in a 3-D row by upwind position. -/
def rowX (E : Nat → K × K × K → K × (K × K × K)) (h z : Nat → K) (v0 : K) : Nat → K
  | 0 => v0
  | p + 1 => (E p (rowX E h z v0 p, h p, z p)).2.1

/-- Fluxes crossing y faces in a plane. -/
def solY (E : Nat → Nat → K × K × K → K × (K × K × K)) (v0 h0 : Nat → K)
    (z : Nat → Nat → K) : Nat → Nat → K
  | 0 => h0
  | q + 1 => fun p => (E p q (rowX (fun p => E p q) (solY E v0 h0 z q) (z q) (v0 q) p,
      solY E v0 h0 z q p, z q p)).2.2.1

/-- Fluxes crossing z faces. -/
def solZ (E : Nat → Nat → Nat → K × K × K → K × (K × K × K)) (v0 h0 z0 : Nat → Nat → K) :
    Nat → Nat → Nat → K
  | 0 => z0
  | t + 1 => fun q p =>
      (E p q t (rowX (fun p => E p q t)
          (solY (fun p q => E p q t) (v0 t) (h0 t) (solZ E v0 h0 z0 t) q)
          (solZ E v0 h0 z0 t q) (v0 t q) p,
        solY (fun p q => E p q t) (v0 t) (h0 t) (solZ E v0 h0 z0 t) q p,
        solZ E v0 h0 z0 t q p)).2.2.2

theorem rowX_congr (E : Nat → K × K × K → K × (K × K × K)) (h h' z z' : Nat → K) (v : K) (n : Nat)
    (hh : ∀ p < n, h p = h' p) (hz : ∀ p < n, z p = z' p) :
    rowX E h z v n = rowX E h' z' v n := by
  induction n with
  | zero => rfl
  | succ n ih =>
      rw [rowX, rowX, ih (fun p hp => hh p (by omega)) (fun p hp => hz p (by omega)),
        hh n (by omega), hz n (by omega)]

theorem cell3_sol (eq : Nat → Nat → Nat → K × K × K → K × (K × K × K)) (up : Bool) (w : K)
    (nx ny k j : Nat) (f : Nat → Nat) (hf : ∀ p < nx, ∀ q < nx, f p = f q → p = q)
    (r : Run (Edge3 K) K) : ∀ m ≤ nx,
    let E := fun p => eq (f p) j k
    let h := fun p => r.edge.xz k (f p)
    let z := fun p => r.edge.xy j (f p)
    let r' := ((List.range m).map f).foldl (cell3 eq up w nx ny k j) r
    let V := rowX E h z r.edge.cur
    let C := fun p => f p + j * nx + k * nx * ny
    r'.edge.cur = V m ∧ r'.edge.yz = r.edge.yz ∧
    (∀ p < m, r'.edge.xz k (f p) = (E p (V p, h p, z p)).2.2.1 ∧
      r'.edge.xy j (f p) = (E p (V p, h p, z p)).2.2.2 ∧
      r'.phi (C p) = r.phi (C p) + w * (E p (V p, h p, z p)).1 ∧
      r'.psi (C p) = if up then (E p (V p, h p, z p)).1 else r.psi (C p)) ∧
    (∀ k' c, (∀ p < m, ¬ (k' = k ∧ c = f p)) → r'.edge.xz k' c = r.edge.xz k' c) ∧
    (∀ j' c, (∀ p < m, ¬ (j' = j ∧ c = f p)) → r'.edge.xy j' c = r.edge.xy j' c) ∧
    (∀ c, (∀ p < m, C p ≠ c) → r'.phi c = r.phi c ∧ r'.psi c = r.psi c) := by
  intro m
  induction m with
  | zero => intro _; simp [rowX]
  | succ m ih =>
      intro hm
      obtain ⟨h1, h2, h3, h4, h4', h5⟩ := ih (by omega)
      intro E h z r' V C
      have er : r' = cell3 eq up w nx ny k j
          (((List.range m).map f).foldl (cell3 eq up w nx ny k j) r) (f m) := by
        show ((List.range (m + 1)).map f).foldl (cell3 eq up w nx ny k j) r = _
        rw [List.range_succ, List.map_append, List.foldl_append]; rfl
      simp only [] at h1 h2 h3 h4 h4' h5
      have hfm : ∀ p < m, f p ≠ f m := fun p hp e => by
        have := hf p (by omega) m (by omega) e; omega
      have hh := h4 k (f m) (fun p hp e => hfm p hp e.2.symm)
      have hz := h4' j (f m) (fun p hp e => hfm p hp e.2.symm)
      rw [er]
      simp only [cell3, record]
      rw [h1, h2, hh, hz]
      refine ⟨rfl, rfl, ?_, ?_, ?_, ?_⟩
      · intro p hp
        have hu := h5 (C m) (fun q hq e => hfm q hq (by simp only [C] at e; omega))
        rcases Nat.lt_or_ge p m with hpm | hpm
        · have hne := hfm p hpm
          have hne' : C p ≠ f m + j * nx + k * nx * ny := by simp only [C]; omega
          rw [upd2_ne _ _ (fun e => hne e.2), upd2_ne _ _ (fun e => hne e.2), upd_ne _ _ hne']
          obtain ⟨k1, k2, k3, k4⟩ := h3 p hpm
          refine ⟨k1, k2, k3, ?_⟩
          cases up
          · simpa using k4
          · simp only [if_true] at k4 ⊢
            rw [upd_ne _ _ hne']; exact k4
        · obtain rfl : p = m := by omega
          rw [upd2_same, upd2_same, upd_same]
          refine ⟨rfl, rfl, by rw [hu.1], ?_⟩
          cases up
          · simpa using hu.2
          · simp only [if_true]
            rw [upd_same]
      · intro k' c hc
        rw [upd2_ne _ _ (fun e => hc m (by omega) e)]
        exact h4 k' c (fun p hp => hc p (by omega))
      · intro k' c hc
        rw [upd2_ne _ _ (fun e => hc m (by omega) e)]
        exact h4' k' c (fun p hp => hc p (by omega))
      · intro c hc
        have hcm : c ≠ f m + j * nx + k * nx * ny := fun e => hc m (by omega) e.symm
        rw [upd_ne _ _ hcm]
        have := h5 c (fun p hp => hc p (by omega))
        refine ⟨this.1, ?_⟩
        cases up
        · simpa using this.2
        · simp only [if_true]; rw [upd_ne _ _ hcm]; exact this.2

theorem row3_sol (eq : Nat → Nat → Nat → K × K × K → K × (K × K × K)) (up : Bool) (w : K)
    (nx ny k : Nat)
    (f g : Nat → Nat) (hf : ∀ p < nx, ∀ q < nx, f p = f q → p = q) (hfn : ∀ p < nx, f p < nx)
    (hg : ∀ p < ny, ∀ q < ny, g p = g q → p = q) (hgn : ∀ p < ny, g p < ny)
    (r : Run (Edge3 K) K) : ∀ m ≤ ny,
    let E := fun p q => eq (f p) (g q) k
    let v0 := fun q => r.edge.yz k (g q)
    let z := fun q p => r.edge.xy (g q) (f p)
    let H := solY E v0 (fun p => r.edge.xz k (f p)) z
    let V := fun q => rowX (fun p => E p q) (H q) (z q) (v0 q)
    let C := fun p q => f p + g q * nx + k * nx * ny
    let r' := ((List.range m).map g).foldl (row3 eq up w nx ny ((List.range nx).map f) k) r
    (∀ p < nx, r'.edge.xz k (f p) = H m p) ∧
    (∀ k' c, k' ≠ k → r'.edge.xz k' c = r.edge.xz k' c) ∧
    (∀ q < m, r'.edge.yz k (g q) = V q nx) ∧
    (∀ k' c, (∀ q < m, ¬ (k' = k ∧ c = g q)) → r'.edge.yz k' c = r.edge.yz k' c) ∧
    (∀ p < nx, ∀ q < m, r'.edge.xy (g q) (f p) = (E p q (V q p, H q p, z q p)).2.2.2) ∧
    (∀ j' c, (∀ q < m, j' ≠ g q) → r'.edge.xy j' c = r.edge.xy j' c) ∧
    (∀ p < nx, ∀ q < m,
      r'.phi (C p q) = r.phi (C p q) + w * (E p q (V q p, H q p, z q p)).1 ∧
      r'.psi (C p q) = if up then (E p q (V q p, H q p, z q p)).1 else r.psi (C p q)) ∧
    (∀ c, (∀ p < nx, ∀ q < m, C p q ≠ c) → r'.phi c = r.phi c ∧ r'.psi c = r.psi c) := by
  intro m
  induction m with
  | zero => intro _; simp [solY]
  | succ m ih =>
      intro hm
      obtain ⟨h1, h1', h2, h3, hz, hz', h4, h5⟩ := ih (by omega)
      intro E v0 z H V C r'
      set r0 := ((List.range m).map g).foldl (row3 eq up w nx ny ((List.range nx).map f) k) r
        with hr0
      have er : r' = row3 eq up w nx ny ((List.range nx).map f) k r0 (g m) := by
        show ((List.range (m + 1)).map g).foldl
          (row3 eq up w nx ny ((List.range nx).map f) k) r = _
        rw [List.range_succ, List.map_append, List.foldl_append]; rfl
      have hgm : ∀ q < m, g q ≠ g m := fun q hq e => by
        have := hg q (by omega) m (by omega) e; omega
      have hvm : r0.edge.yz k (g m) = v0 m := h3 k (g m) (fun q hq e => hgm q hq e.2.symm)
      have hzm : ∀ p, r0.edge.xy (g m) (f p) = z m p := fun p =>
        hz' (g m) (f p) (fun q hq e => hgm q hq e.symm)
      obtain ⟨k1, k2, k3, k4, k4', k5⟩ := cell3_sol eq up w nx ny k (g m) f hf
        { r0 with edge := { r0.edge with cur := r0.edge.yz k (g m) } } nx (le_refl _)
      simp only [] at k1 k2 k3 k4 k4' k5
      have hrow : ∀ p ≤ nx, rowX (fun p => eq (f p) (g m) k) (fun p => r0.edge.xz k (f p))
          (fun p => r0.edge.xy (g m) (f p)) (r0.edge.yz k (g m)) p = V m p := by
        intro p hp
        rw [hvm]
        exact rowX_congr _ _ _ _ _ _ _ (fun p' hp' => h1 p' (by omega)) (fun p' _ => hzm p')
      rw [er]
      simp only [row3]
      rw [k1, k2, hrow nx (le_refl _)]
      refine ⟨?_, ?_, ?_, ?_, ?_, ?_, ?_, ?_⟩
      · intro p hp
        rw [(k3 p hp).1, hrow p (by omega), h1 p hp, hzm p]
        rfl
      · intro k' c hc
        rw [k4 k' c (fun p _ e => hc e.1)]
        exact h1' k' c hc
      · intro q hq
        rcases Nat.lt_or_ge q m with hqm | hqm
        · rw [upd2_ne _ _ (fun e => hgm q hqm e.2)]; exact h2 q hqm
        · obtain rfl : q = m := by omega
          rw [upd2_same]
      · intro k' c hc
        rw [upd2_ne _ _ (fun e => hc m (by omega) e)]
        exact h3 k' c (fun q hq => hc q (by omega))
      · intro p hp q hq
        rcases Nat.lt_or_ge q m with hqm | hqm
        · rw [k4' (g q) (f p) (fun p' _ e => hgm q hqm e.1)]
          exact hz p hp q hqm
        · obtain rfl : q = m := by omega
          rw [(k3 p hp).2.1, hrow p (by omega), h1 p hp, hzm p]
      · intro j' c hc
        rw [k4' j' c (fun p' _ e => hc m (by omega) e.1)]
        exact hz' j' c (fun q hq => hc q (by omega))
      · intro p hp q hq
        rcases Nat.lt_or_ge q m with hqm | hqm
        · have := k5 (C p q) (fun p' hp' e =>
            hgm q hqm (box_inj (hfn p' hp') (hfn p hp) (hgn m (by omega))
              (hgn q (by omega)) e).2.1.symm)
          rw [this.1, this.2]
          exact h4 p hp q hqm
        · obtain rfl : q = m := by omega
          have hu := h5 (C p q) (fun p' hp' q' hq' e =>
            hgm q' hq' (box_inj (hfn p' hp') (hfn p hp) (hgn q' (by omega))
              (hgn q (by omega)) e).2.1)
          obtain ⟨_, _, j2, j3⟩ := k3 p hp
          simp only [C] at hu ⊢
          rw [j2, j3, hrow p (by omega), h1 p hp, hzm p, hu.1, hu.2]
          exact ⟨rfl, rfl⟩
      · intro c hc
        have := k5 c (fun p hp => hc p hp m (by omega))
        rw [this.1, this.2]
        exact h5 c (fun p hp q hq => hc p hp q (by omega))

theorem solY_congr (E : Nat → Nat → K × K × K → K × (K × K × K)) (v0 h0 : Nat → K)
    (z z' : Nat → Nat → K) (nx n : Nat)
    (hz : ∀ q < n, ∀ p < nx, z q p = z' q p) : ∀ q ≤ n, ∀ p < nx,
    solY E v0 h0 z q p = solY E v0 h0 z' q p := by
  intro q
  induction q with
  | zero => intro _ p _; rfl
  | succ q ih =>
      intro hq p hp
      have ih' := ih (by omega)
      simp only [solY]
      rw [rowX_congr _ (solY E v0 h0 z q) (solY E v0 h0 z' q) (z q) (z' q) (v0 q) p
        (fun p' hp' => ih' p' (by omega)) (fun p' hp' => hz q (by omega) p' (by omega)),
        ih' p hp, hz q (by omega) p hp]

theorem plane3_sol (eq : Nat → Nat → Nat → K × K × K → K × (K × K × K)) (up : Bool) (w : K)
    (nx ny nz : Nat)
    (f g e : Nat → Nat) (hf : ∀ p < nx, ∀ q < nx, f p = f q → p = q) (hfn : ∀ p < nx, f p < nx)
    (hg : ∀ p < ny, ∀ q < ny, g p = g q → p = q) (hgn : ∀ p < ny, g p < ny)
    (he : ∀ p < nz, ∀ q < nz, e p = e q → p = q)
    (r : Run (Edge3 K) K) : ∀ m ≤ nz,
    let E := fun p q t => eq (f p) (g q) (e t)
    let v0 := fun t q => r.edge.yz (e t) (g q)
    let h0 := fun t p => r.edge.xz (e t) (f p)
    let Z := solZ E v0 h0 (fun q p => r.edge.xy (g q) (f p))
    let H := fun t => solY (fun p q => E p q t) (v0 t) (h0 t) (Z t)
    let V := fun t q => rowX (fun p => E p q t) (H t q) (Z t q) (v0 t q)
    let C := fun p q t => f p + g q * nx + e t * nx * ny
    let r' := ((List.range m).map e).foldl
      (plane3 eq up w nx ny ((List.range nx).map f) ((List.range ny).map g)) r
    (∀ q < ny, ∀ p < nx, r'.edge.xy (g q) (f p) = Z m q p) ∧
    (∀ t < m, ∀ p < nx, r'.edge.xz (e t) (f p) = H t ny p) ∧
    (∀ t < m, ∀ q < ny, r'.edge.yz (e t) (g q) = V t q nx) ∧
    (∀ k' c, (∀ t < m, k' ≠ e t) →
      r'.edge.xz k' c = r.edge.xz k' c ∧ r'.edge.yz k' c = r.edge.yz k' c) ∧
    (∀ p < nx, ∀ q < ny, ∀ t < m,
      r'.phi (C p q t) = r.phi (C p q t) + w * (E p q t (V t q p, H t q p, Z t q p)).1 ∧
      r'.psi (C p q t) =
        if up then (E p q t (V t q p, H t q p, Z t q p)).1 else r.psi (C p q t)) ∧
    (∀ c, (∀ p < nx, ∀ q < ny, ∀ t < m, C p q t ≠ c) →
      r'.phi c = r.phi c ∧ r'.psi c = r.psi c) := by
  intro m
  induction m with
  | zero => intro _; simp [solZ]
  | succ m ih =>
      intro hm
      obtain ⟨h1, h2, h3, h4, h5, h6⟩ := ih (by omega)
      intro E v0 h0 Z H V C r'
      set r0 := ((List.range m).map e).foldl
        (plane3 eq up w nx ny ((List.range nx).map f) ((List.range ny).map g)) r with hr0
      have er : r' = plane3 eq up w nx ny ((List.range nx).map f) ((List.range ny).map g) r0
          (e m) := by
        show ((List.range (m + 1)).map e).foldl
          (plane3 eq up w nx ny ((List.range nx).map f) ((List.range ny).map g)) r = _
        rw [List.range_succ, List.map_append, List.foldl_append]; rfl
      have hem : ∀ q < m, e q ≠ e m := fun q hq h => by
        have := he q (by omega) m (by omega) h; omega
      have hv0 : (fun q => r0.edge.yz (e m) (g q)) = v0 m := by
        funext q; exact (h4 (e m) (g q) (fun t ht h => hem t ht h.symm)).2
      have hh0 : (fun p => r0.edge.xz (e m) (f p)) = h0 m := by
        funext p; exact (h4 (e m) (f p) (fun t ht h => hem t ht h.symm)).1
      obtain ⟨k1, k1', k2, k3, kz, _, k4, k5⟩ := row3_sol eq up w nx ny (e m) f g hf hfn hg hgn
        r0 ny (le_refl _)
      simp only [] at k1 k1' k2 k3 kz k4 k5
      rw [hv0, hh0] at k1
      have hH : ∀ q ≤ ny, ∀ p < nx, solY (fun p q => eq (f p) (g q) (e m)) (v0 m) (h0 m)
          (fun q p => r0.edge.xy (g q) (f p)) q p = H m q p :=
        solY_congr _ _ _ _ _ nx ny (fun q hq p hp => h1 q hq p hp)
      have hV : ∀ q < ny, ∀ p ≤ nx, rowX (fun p => eq (f p) (g q) (e m))
          (solY (fun p q => eq (f p) (g q) (e m)) (v0 m) (h0 m)
            (fun q p => r0.edge.xy (g q) (f p)) q) (fun p => r0.edge.xy (g q) (f p))
          (r0.edge.yz (e m) (g q)) p = V m q p := by
        intro q hq p hp
        have : r0.edge.yz (e m) (g q) = v0 m q := congrFun hv0 q
        rw [this]
        exact rowX_congr _ _ _ _ _ _ _ (fun p' hp' => hH q (by omega) p' (by omega))
          (fun p' hp' => h1 q hq p' (by omega))
      rw [hv0, hh0] at k2 kz k4
      rw [er]
      simp only [plane3]
      refine ⟨?_, ?_, ?_, ?_, ?_, ?_⟩
      · intro q hq p hp
        rw [kz p hp q hq, hV q hq p (by omega), hH q (by omega) p hp,
          h1 q hq p hp]
        rfl
      · intro t ht p hp
        rcases Nat.lt_or_ge t m with htm | htm
        · rw [k1' _ _ (hem t htm)]; exact h2 t htm p hp
        · obtain rfl : t = m := by omega
          rw [k1 p hp, hH ny (le_refl _) p hp]
      · intro t ht q hq
        rcases Nat.lt_or_ge t m with htm | htm
        · rw [k3 _ _ (fun q' _ h => hem t htm h.1)]; exact h3 t htm q hq
        · obtain rfl : t = m := by omega
          rw [k2 q hq, hV q hq nx (le_refl _)]
      · intro k' c hc
        have hk := hc m (by omega)
        rw [k1' k' c hk, k3 k' c (fun q' _ h => hk h.1)]
        exact h4 k' c (fun t ht => hc t (by omega))
      · intro p hp q hq t ht
        rcases Nat.lt_or_ge t m with htm | htm
        · have := k5 (C p q t) (fun p' hp' q' hq' h =>
            hem t htm (box_inj (hfn p' hp') (hfn p hp) (hgn q' hq') (hgn q hq) h).2.2.symm)
          rw [this.1, this.2]
          exact h5 p hp q hq t htm
        · obtain rfl : t = m := by omega
          have hu := h6 (C p q t) (fun p' hp' q' hq' t' ht' h =>
            hem t' ht' (box_inj (hfn p' hp') (hfn p hp) (hgn q' hq') (hgn q hq) h).2.2)
          obtain ⟨j2, j3⟩ := k4 p hp q hq
          simp only [C] at hu ⊢
          rw [j2, j3, hV q hq p (by omega), hH q (by omega) p hp,
            h1 q hq p hp, hu.1, hu.2]
          exact ⟨rfl, rfl⟩
      · intro c hc
        have := k5 c (fun p hp q hq => hc p hp q hq m (by omega))
        rw [this.1, this.2]
        exact h6 c (fun p hp q hq t ht => hc p hp q hq t (by omega))

/-! ### Relations between three executions -/

theorem foldl_rel3 {S A : Type} (R : S → S → S → Prop) (f1 f2 f3 : S → A → S) :
    ∀ (l : List A), (∀ a ∈ l, ∀ s1 s2 s3, R s1 s2 s3 → R (f1 s1 a) (f2 s2 a) (f3 s3 a)) →
    ∀ s1 s2 s3, R s1 s2 s3 → R (l.foldl f1 s1) (l.foldl f2 s2) (l.foldl f3 s3) := by
  intro l
  induction l with
  | nil => intro _ _ _ _ h; exact h
  | cons a l ih =>
      intro h s1 s2 s3 hs
      exact ih (fun b hb => h b (List.mem_cons_of_mem _ hb)) _ _ _
        (h a List.mem_cons_self _ _ _ hs)

end Detran.Sweep
