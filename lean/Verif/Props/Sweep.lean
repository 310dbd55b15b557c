import Verif.Lemmas.Sweep
import Mathlib.Algebra.Order.Ring.Rat
import Mathlib.Tactic.Positivity
import Mathlib.Tactic.FinCases

/-!
# Properties of the spatial equations and sweeps (C26 – C29)

Sides are numbered west 0, east 1, south 2, north 3, bottom 4, top 5.  A direction in octant `o`
enters the box through side `entry o d` and leaves through side `exit o d` in dimension `d`,
according to the sign of its cosine.
-/

namespace Detran.Sweep

open Detran.Solver Finset

variable {K : Type} [Field K]

/-! ## Specification vocabulary -/

/-- Side through which octant `o` enters in dimension `d`. -/
def entry (o d : Nat) : Nat := if 0 < octantSign o d then 2 * d else 2 * d + 1
/-- Side through which octant `o` leaves in dimension `d`. -/
def exit (o d : Nat) : Nat := if 0 < octantSign o d then 2 * d + 1 else 2 * d

/-- The cell index `p` steps downwind of the entry side. -/
def posn (n o d p : Nat) : Nat := if 0 < octantSign o d then p else n - 1 - p

/-- A boundary update that only rewrites incident fluxes of the direction about to be swept. -/
def OnlyIncident {F : Type} (nd : Nat)
    (bup : (Nat → Nat → Nat → F) → Nat → Nat → Nat → Nat → Nat → F) : Prop :=
  ∀ b o a f o' a', ¬ (o' = o ∧ a' = a ∧ ∃ d < nd, f = entry o d) →
    bup b o a f o' a' = b f o' a'

theorem posOctants_sign : ∀ o < 8, ∀ d < 3, (o ∈ posOctants d ↔ 0 < octantSign o d) := by decide

theorem at_posn {n o d p : Nat} (ho : o < 8) (hd : d < 3) : at_ n d o p = posn n o d p := by
  unfold at_ posn
  simp only [posOctants_sign o ho d hd]

theorem tables1 : ∀ o < 2, in1 o = entry o 0 ∧ out1 o = exit o 0 := by decide
theorem tables2 : ∀ o < 4, in2 o = (entry o 0, entry o 1) ∧ out2 o = (exit o 0, exit o 1) := by
  decide
theorem tables3 : ∀ o < 8, in3 o = (entry o 0, entry o 1, entry o 2) ∧
    out3 o = (exit o 0, exit o 1, exit o 2) := by decide

theorem entry_ne_exit (o d d' : Nat) : entry o d ≠ exit o d' := by
  unfold entry exit
  split_ifs with h1 h2 h2
  · omega
  · intro e; obtain rfl : d = d' := by omega
    exact h2 h1
  · intro e; obtain rfl : d = d' := by omega
    exact h1 h2
  · omega

theorem exit_inj {o d d' : Nat} (h : exit o d = exit o d') : d = d' := by
  unfold exit at h
  split_ifs at h <;> omega

/-! ## C28: visiting order -/

theorem flatMap_getElem {A B : Type} (m : Nat) (f : A → List B) : ∀ (l : List A),
    (∀ x ∈ l, (f x).length = m) → ∀ (q i : Nat), i < m → ∀ x, l[q]? = some x →
    (l.flatMap f)[i + q * m]? = (f x)[i]? := by
  intro l
  induction l with
  | nil => intro _ q i _ x h; simp at h
  | cons y l ih =>
      intro hl q i hi x hx
      rw [List.flatMap_cons]
      have hy : (f y).length = m := hl y List.mem_cons_self
      cases q with
      | zero =>
          simp at hx; subst hx
          rw [List.getElem?_append_left (by omega)]
          simp
      | succ q =>
          simp at hx
          rw [List.getElem?_append_right (by rw [hy, Nat.succ_mul]; omega), hy]
          have : i + (q + 1) * m - m = i + q * m := by rw [Nat.succ_mul]; omega
          rw [this]
          exact ih (fun z hz => hl z (List.mem_cons_of_mem _ hz)) q i hi x hx

/-- Cells in the order in which the 1-D sweep treats them. -/
def visits1 (nx o : Nat) : List Nat := cells nx 0 o
/-- Cells in the order in which the 2-D sweep treats them. -/
def visits2 (nx ny o : Nat) : List (Nat × Nat) :=
  (cells ny 1 o).flatMap fun j => (cells nx 0 o).map fun i => (i, j)
/-- Cells in the order in which the 3-D sweep treats them. -/
def visits3 (nx ny nz o : Nat) : List (Nat × Nat × Nat) :=
  (cells nz 2 o).flatMap fun k => (cells ny 1 o).flatMap fun j =>
    (cellsU nx 0 o).map fun i => (i, j, k)

theorem cells_getElem {n d o p : Nat} (hp : p < n) : (cells n d o)[p]? = some (at_ n d o p) := by
  rw [cells_eq]; simp [hp]

theorem cells_length (n d o : Nat) : (cells n d o).length = n := by rw [cells_eq]; simp

/-- 1-D: the `p`-th cell treated is the one `p` steps from the entry side, so every cell is
    treated once and after its upwind neighbour. -/
theorem C28_order_1D (nx o : Nat) (ho : o < 2) :
    (visits1 nx o).Nodup ∧ (∀ c, c ∈ visits1 nx o ↔ c < nx) ∧
    ∀ p < nx, (visits1 nx o)[p]? = some (posn nx o 0 p) := by
  refine ⟨cells_nodup _ _ _, fun c => mem_cells, fun p hp => ?_⟩
  rw [visits1, cells_getElem hp, at_posn (by omega) (by omega)]

example : visits1 3 1 = [2, 1, 0] := by decide

/-- 2-D. -/
theorem C28_order_2D (nx ny o : Nat) (ho : o < 4) :
    (visits2 nx ny o).Nodup ∧ (∀ c, c ∈ visits2 nx ny o ↔ c.1 < nx ∧ c.2 < ny) ∧
    ∀ p < nx, ∀ q < ny, (visits2 nx ny o)[p + q * nx]? = some (posn nx o 0 p, posn ny o 1 q) := by
  refine ⟨?_, ?_, ?_⟩
  · unfold visits2
    rw [List.nodup_flatMap]
    refine ⟨fun j _ => (cells_nodup nx 0 o).map (fun a b h => (Prod.mk.inj h).1), ?_⟩
    refine (cells_nodup ny 1 o).imp_of_mem ?_
    intro a b _ _ hab p hp hq
    rw [List.mem_map] at hp hq
    obtain ⟨x, _, rfl⟩ := hp
    obtain ⟨y, _, e⟩ := hq
    exact hab (Prod.mk.inj e).2.symm
  · rintro ⟨i, j⟩
    simp only [visits2, List.mem_flatMap, List.mem_map, mem_cells, Prod.mk.injEq]
    constructor
    · rintro ⟨j', hj, i', hi, rfl, rfl⟩; exact ⟨hi, hj⟩
    · rintro ⟨h1, h2⟩; exact ⟨j, h2, i, h1, rfl, rfl⟩
  · intro p hp q hq
    unfold visits2
    rw [flatMap_getElem nx _ _ (fun x _ => by rw [List.length_map, cells_length]) q p hp _
      (cells_getElem hq), List.getElem?_map, cells_getElem hp, at_posn (by omega) (by omega),
      at_posn (by omega) (by omega)]
    rfl

example : visits2 2 2 2 = [(1, 1), (0, 1), (1, 0), (0, 0)] := by decide

/-- 3-D, where the x loop runs on unsigned 32-bit integers that wrap around. -/
theorem C28_order_3D (nx ny nz o : Nat) (ho : o < 8) (hfit : nx ≤ 2 ^ 32) :
    (visits3 nx ny nz o).Nodup ∧
    (∀ c, c ∈ visits3 nx ny nz o ↔ c.1 < nx ∧ c.2.1 < ny ∧ c.2.2 < nz) ∧
    ∀ p < nx, ∀ q < ny, ∀ t < nz, (visits3 nx ny nz o)[p + q * nx + t * (nx * ny)]? =
      some (posn nx o 0 p, posn ny o 1 q, posn nz o 2 t) := by
  unfold visits3
  rw [cellsU_eq _ _ _ hfit]
  refine ⟨?_, ?_, ?_⟩
  · rw [List.nodup_flatMap]
    constructor
    · intro k _
      rw [List.nodup_flatMap]
      refine ⟨fun j _ => (cells_nodup nx 0 o).map (fun a b h => (Prod.mk.inj h).1), ?_⟩
      refine (cells_nodup ny 1 o).imp_of_mem ?_
      intro a b _ _ hab p hp hq
      rw [List.mem_map] at hp hq
      obtain ⟨x, _, rfl⟩ := hp
      obtain ⟨y, _, e⟩ := hq
      simp only [Prod.mk.injEq] at e
      exact hab e.2.1.symm
    · refine (cells_nodup nz 2 o).imp_of_mem ?_
      intro a b _ _ hab p hp hq
      simp only [List.mem_flatMap, List.mem_map] at hp hq
      obtain ⟨x, _, y, _, rfl⟩ := hp
      obtain ⟨x', _, y', _, e⟩ := hq
      simp only [Prod.mk.injEq] at e
      exact hab e.2.2.symm
  · rintro ⟨i, j, k⟩
    simp only [List.mem_flatMap, List.mem_map, mem_cells, Prod.mk.injEq]
    constructor
    · rintro ⟨k', hk, j', hj, i', hi, rfl, rfl, rfl⟩; exact ⟨hi, hj, hk⟩
    · rintro ⟨h1, h2, h3⟩; exact ⟨k, h3, j, h2, i, h1, rfl, rfl, rfl⟩
  · intro p hp q hq t ht
    have hlen : ∀ k : Nat, ((cells ny 1 o).flatMap fun j =>
        (cells nx 0 o).map fun i => (i, j, k)).length = nx * ny := by
      intro k
      rw [List.length_flatMap]
      simp [cells_length, List.map_const', Nat.mul_comm]
    have hpq : p + q * nx < nx * ny := Detran.Mesh.idx_row_lt hp hq
    rw [flatMap_getElem (nx * ny) _ _ (fun x _ => hlen x) t (p + q * nx) hpq _ (cells_getElem ht),
      flatMap_getElem nx _ _ (fun x _ => by rw [List.length_map, cells_length]) q p hp _
      (cells_getElem hq), List.getElem?_map, cells_getElem hp, at_posn (by omega) (by omega),
      at_posn (by omega) (by omega), at_posn (by omega) (by omega)]
    rfl

example : visits3 2 2 1 6 = [(1, 1, 0), (0, 1, 0), (1, 0, 0), (0, 0, 0)] := by decide

/-- Consequence of the positions: the upwind neighbour in x of a cell that is not on the entry
    side was treated earlier (the other two dimensions are alike). -/
theorem C28_upwind_first (nx ny nz o : Nat) (ho : o < 8) (hfit : nx ≤ 2 ^ 32) (i j k : Nat)
    (hi : i < nx) (hj : j < ny) (hk : k < nz) :
    ∃ N : Nat, (visits3 nx ny nz o)[N]? = some (i, j, k) ∧
      (∀ i' : Nat, i' < nx → (i' : Int) = i - octantSign o 0 →
        ∃ M < N, (visits3 nx ny nz o)[M]? = some (i', j, k)) ∧
      (∀ j' : Nat, j' < ny → (j' : Int) = j - octantSign o 1 →
        ∃ M < N, (visits3 nx ny nz o)[M]? = some (i, j', k)) ∧
      (∀ k' : Nat, k' < nz → (k' : Int) = k - octantSign o 2 →
        ∃ M < N, (visits3 nx ny nz o)[M]? = some (i, j, k')) := by
  obtain ⟨_, _, h⟩ := C28_order_3D nx ny nz o ho hfit
  have inv : ∀ n d i, i < n → posn n o d i < n ∧ posn n o d (posn n o d i) = i := by
    intro n d i hi
    unfold posn; split_ifs <;> omega
  have sgn : ∀ d < 3, octantSign o d = 1 ∨ octantSign o d = -1 := by
    have : ∀ o < 8, ∀ d < 3, octantSign o d = 1 ∨ octantSign o d = -1 := by decide
    exact this o ho
  have step : ∀ n d i i' : Nat, d < 3 → i < n → i' < n → (i' : Int) = i - octantSign o d →
      posn n o d i' < posn n o d i := by
    intro n d i i' hd hi hi' e
    unfold posn
    rcases sgn d hd with s | s <;> rw [s] at e ⊢ <;> simp <;> omega
  refine ⟨posn nx o 0 i + posn ny o 1 j * nx + posn nz o 2 k * (nx * ny), ?_, ?_, ?_, ?_⟩
  · rw [h _ (inv nx 0 i hi).1 _ (inv ny 1 j hj).1 _ (inv nz 2 k hk).1, (inv nx 0 i hi).2,
      (inv ny 1 j hj).2, (inv nz 2 k hk).2]
  · intro i' hi' e
    refine ⟨posn nx o 0 i' + posn ny o 1 j * nx + posn nz o 2 k * (nx * ny), ?_, ?_⟩
    · have := step nx 0 i i' (by omega) hi hi' e; omega
    · rw [h _ (inv nx 0 i' hi').1 _ (inv ny 1 j hj).1 _ (inv nz 2 k hk).1, (inv nx 0 i' hi').2,
        (inv ny 1 j hj).2, (inv nz 2 k hk).2]
  · intro j' hj' e
    refine ⟨posn nx o 0 i + posn ny o 1 j' * nx + posn nz o 2 k * (nx * ny), ?_, ?_⟩
    · have := Nat.mul_lt_mul_of_pos_right (step ny 1 j j' (by omega) hj hj' e)
        (by omega : 0 < nx)
      omega
    · rw [h _ (inv nx 0 i hi).1 _ (inv ny 1 j' hj').1 _ (inv nz 2 k hk).1, (inv nx 0 i hi).2,
        (inv ny 1 j' hj').2, (inv nz 2 k hk).2]
  · intro k' hk' e
    refine ⟨posn nx o 0 i + posn ny o 1 j * nx + posn nz o 2 k' * (nx * ny), ?_, ?_⟩
    · have := Nat.mul_lt_mul_of_pos_right (step nz 2 k k' (by omega) hk hk' e)
        (Nat.mul_pos (by omega : 0 < nx) (by omega : 0 < ny))
      omega
    · rw [h _ (inv nx 0 i hi).1 _ (inv ny 1 j hj).1 _ (inv nz 2 k' hk').1, (inv nx 0 i hi).2,
        (inv ny 1 j hj).2, (inv nz 2 k' hk').2]

/-! ## C28: the sweep solves the cell equations -/

section solves

theorem setB_other {F : Type} (b : Nat → Nat → Nat → F) (f o a : Nat) (v : F) (f' o' a' : Nat)
    (h : ¬ (f' = f ∧ o' = o ∧ a' = a)) : setB b f o a v f' o' a' = b f' o' a' := if_neg h

theorem setB_same {F : Type} (b : Nat → Nat → Nat → F) (f o a : Nat) (v : F) :
    setB b f o a v f o a = v := if_pos ⟨rfl, rfl, rfl⟩

theorem setPsi_other (p : Nat → Nat → Nat → K) (o a : Nat) (v : Nat → K) (o' a' : Nat)
    (h : ¬ (o' = o ∧ a' = a)) : setPsi p o a v o' a' = p o' a' := if_neg h

theorem setPsi_same (p : Nat → Nat → Nat → K) (o a : Nat) (v : Nat → K) :
    setPsi p o a v o a = v := if_pos ⟨rfl, rfl⟩

/-- What direction `(o, a)` of a sweep leaves behind: boundary fluxes and angular flux. -/
def trace {F : Type} (s : St F K) (o a : Nat) : (Nat → F) × (Nat → K) :=
  (fun f => s.bdy f o a, s.psi o a)

theorem trace1_other (eq : Nat → (Nat → K) → Nat → K → K × K) (src w) (nx up bup)
    (hb : OnlyIncident 1 bup) (s : St K K) (p q : Nat × Nat) (h : q ≠ p) :
    trace (angle1 eq src w nx up bup s p.1 p.2) q.1 q.2 = trace s q.1 q.2 := by
  have hpq : ¬ (q.1 = p.1 ∧ q.2 = p.2) := fun e => h (Prod.ext e.1 e.2)
  unfold trace angle1
  refine Prod.ext ?_ ?_
  · funext f
    simp only []
    rw [setB_other _ _ _ _ _ _ _ _ (fun e => hpq e.2)]
    exact hb _ _ _ _ _ _ (fun e => hpq ⟨e.1, e.2.1⟩)
  · simp only []
    split_ifs
    · rw [setPsi_other _ _ _ _ _ _ hpq]
    · rfl

theorem trace2_other (eq : Nat → (Nat → K) → Nat → Nat → K × K → K × (K × K)) (src w)
    (nx ny up bup) (hb : OnlyIncident 2 bup) (s : St (Nat → K) K) (p q : Nat × Nat) (h : q ≠ p) :
    trace (angle2 eq src w nx ny up bup s p.1 p.2) q.1 q.2 = trace s q.1 q.2 := by
  have hpq : ¬ (q.1 = p.1 ∧ q.2 = p.2) := fun e => h (Prod.ext e.1 e.2)
  unfold trace angle2
  refine Prod.ext ?_ ?_
  · funext f
    simp only []
    rw [setB_other _ _ _ _ _ _ _ _ (fun e => hpq e.2), setB_other _ _ _ _ _ _ _ _ (fun e => hpq e.2)]
    exact hb _ _ _ _ _ _ (fun e => hpq ⟨e.1, e.2.1⟩)
  · simp only []
    split_ifs
    · rw [setPsi_other _ _ _ _ _ _ hpq]
    · rfl

theorem trace3_other (eq : Nat → (Nat → K) → Nat → Nat → Nat → K × K × K → K × (K × K × K)) (src w)
    (nx ny nz up bup) (hb : OnlyIncident 3 bup) (s : St (Nat → Nat → K) K) (p q : Nat × Nat)
    (h : q ≠ p) :
    trace (angle3 eq src w nx ny nz up bup s p.1 p.2) q.1 q.2 = trace s q.1 q.2 := by
  have hpq : ¬ (q.1 = p.1 ∧ q.2 = p.2) := fun e => h (Prod.ext e.1 e.2)
  unfold trace angle3
  refine Prod.ext ?_ ?_
  · funext f
    simp only []
    rw [setB_other _ _ _ _ _ _ _ _ (fun e => hpq e.2), setB_other _ _ _ _ _ _ _ _ (fun e => hpq e.2),
      setB_other _ _ _ _ _ _ _ _ (fun e => hpq e.2)]
    exact hb _ _ _ _ _ _ (fun e => hpq ⟨e.1, e.2.1⟩)
  · simp only []
    split_ifs
    · rw [setPsi_other _ _ _ _ _ _ hpq]
    · rfl

/-- `bd` (boundary fluxes of one direction by side) and `ps` (angular flux by cell) solve the
    1-D cell equations: there are edge fluxes starting at the incident flux, ending at the
    outgoing flux, and satisfying the cell equation in every cell. -/
def Solves1 (nx : Nat) (eq : Nat → K → K × K) (o : Nat) (bd : Nat → K) (ps : Nat → K) : Prop :=
  ∃ V : Nat → K, V 0 = bd (entry o 0) ∧ bd (exit o 0) = V nx ∧
    ∀ p < nx, eq (posn nx o 0 p) (V p) = (ps (posn nx o 0 p), V (p + 1))

/-- 2-D: `V p q` crosses the vertical faces and `H p q` the horizontal faces of the cell `p`
    and `q` steps downwind of the entry corner. -/
def Solves2 (nx ny : Nat) (eq : Nat → Nat → K × K → K × (K × K)) (o : Nat) (bd : Nat → Nat → K)
    (ps : Nat → K) : Prop :=
  ∃ V H : Nat → Nat → K,
    (∀ q < ny, V 0 q = bd (entry o 0) (posn ny o 1 q) ∧
      bd (exit o 0) (posn ny o 1 q) = V nx q) ∧
    (∀ p < nx, H p 0 = bd (entry o 1) (posn nx o 0 p) ∧
      bd (exit o 1) (posn nx o 0 p) = H p ny) ∧
    ∀ p < nx, ∀ q < ny, eq (posn nx o 0 p) (posn ny o 1 q) (V p q, H p q) =
      (ps (posn nx o 0 p + posn ny o 1 q * nx), (V (p + 1) q, H p (q + 1)))

/-- 3-D; boundary fluxes are indexed `[k][j]`, `[k][i]` and `[j][i]`. -/
def Solves3 (nx ny nz : Nat) (eq : Nat → Nat → Nat → K × K × K → K × (K × K × K)) (o : Nat)
    (bd : Nat → Nat → Nat → K) (ps : Nat → K) : Prop :=
  ∃ V H Z : Nat → Nat → Nat → K,
    (∀ q < ny, ∀ t < nz, V 0 q t = bd (entry o 0) (posn nz o 2 t) (posn ny o 1 q) ∧
      bd (exit o 0) (posn nz o 2 t) (posn ny o 1 q) = V nx q t) ∧
    (∀ p < nx, ∀ t < nz, H p 0 t = bd (entry o 1) (posn nz o 2 t) (posn nx o 0 p) ∧
      bd (exit o 1) (posn nz o 2 t) (posn nx o 0 p) = H p ny t) ∧
    (∀ p < nx, ∀ q < ny, Z p q 0 = bd (entry o 2) (posn ny o 1 q) (posn nx o 0 p) ∧
      bd (exit o 2) (posn ny o 1 q) (posn nx o 0 p) = Z p q nz) ∧
    ∀ p < nx, ∀ q < ny, ∀ t < nz,
      eq (posn nx o 0 p) (posn ny o 1 q) (posn nz o 2 t) (V p q t, H p q t, Z p q t) =
      (ps (posn nx o 0 p + posn ny o 1 q * nx + posn nz o 2 t * nx * ny),
        (V (p + 1) q t, H p (q + 1) t, Z p q (t + 1)))

theorem angle1_solves (eq : Nat → (Nat → K) → Nat → K → K × K) (src w) (nx bup)
    (s : St K K) (o a : Nat) (ho : o < 2) :
    Solves1 nx (eq a (src o a)) o (trace (angle1 eq src w nx true bup s o a) o a).1
      (trace (angle1 eq src w nx true bup s o a) o a).2 := by
  obtain ⟨t1, t2⟩ := tables1 o ho
  obtain ⟨h1, h2, -⟩ := line1_sol (eq a (src o a)) true (w a) nx (at_ nx 0 o)
    (fun p hp q hq e => at_inj hp hq e) ⟨bup s.bdy o a (in1 o) o a, s.phi, s.psi o a⟩ nx (le_refl _)
  rw [← cells_eq] at h1 h2
  unfold Solves1 trace angle1
  simp only [if_true, setPsi_same, t1, t2] at h1 h2 ⊢
  refine ⟨edge1 (fun p => eq a (src o a) (at_ nx 0 o p)) (bup s.bdy o a (entry o 0) o a), ?_, ?_, ?_⟩
  · rw [setB_other _ _ _ _ _ _ _ _ (fun e => entry_ne_exit o 0 0 e.1)]; rfl
  · rw [setB_same, h1]
  · intro p hp
    rw [← at_posn (by omega) (by omega), (h2 p hp).2]
    rfl

theorem angle2_solves (eq : Nat → (Nat → K) → Nat → Nat → K × K → K × (K × K)) (src w)
    (nx ny bup) (s : St (Nat → K) K) (o a : Nat) (ho : o < 4) :
    Solves2 nx ny (eq a (src o a)) o (trace (angle2 eq src w nx ny true bup s o a) o a).1
      (trace (angle2 eq src w nx ny true bup s o a) o a).2 := by
  obtain ⟨t1, t2⟩ := tables2 o ho
  obtain ⟨h1, h2, -, h4, -⟩ := row2_sol (eq a (src o a)) true (w a) nx ny (at_ nx 0 o) (at_ ny 1 o)
    (fun p hp q hq e => at_inj hp hq e) (fun p hp => at_lt hp) (fun p hp q hq e => at_inj hp hq e)
    ⟨⟨0, bup s.bdy o a (in2 o).1 o a, bup s.bdy o a (in2 o).2 o a⟩, s.phi, s.psi o a⟩ ny (le_refl _)
  rw [← cells_eq, ← cells_eq] at h1 h2 h4
  unfold Solves2 trace angle2
  simp only [if_true, setPsi_same, t1, t2] at h1 h2 h4 ⊢
  simp only [← at_posn (n := nx) (o := o) (d := 0) (by omega) (by omega),
    ← at_posn (n := ny) (o := o) (d := 1) (by omega) (by omega)]
  refine ⟨fun p q => rowV (fun p => eq a (src o a) (at_ nx 0 o p) (at_ ny 1 o q))
      (solH (fun p q => eq a (src o a) (at_ nx 0 o p) (at_ ny 1 o q))
        (fun q => bup s.bdy o a (entry o 0) o a (at_ ny 1 o q))
        (fun p => bup s.bdy o a (entry o 1) o a (at_ nx 0 o p)) q)
      (bup s.bdy o a (entry o 0) o a (at_ ny 1 o q)) p,
    fun p q => solH (fun p q => eq a (src o a) (at_ nx 0 o p) (at_ ny 1 o q))
        (fun q => bup s.bdy o a (entry o 0) o a (at_ ny 1 o q))
        (fun p => bup s.bdy o a (entry o 1) o a (at_ nx 0 o p)) q p, ?_, ?_, ?_⟩
  · intro q hq
    rw [setB_other _ _ _ _ _ _ _ _ (fun e => entry_ne_exit o 0 1 e.1),
      setB_other _ _ _ _ _ _ _ _ (fun e => entry_ne_exit o 0 0 e.1),
      setB_other _ _ _ _ _ _ _ _ (fun e => absurd (exit_inj e.1) (by omega)), setB_same]
    exact ⟨rfl, h2 q hq⟩
  · intro p hp
    rw [setB_other _ _ _ _ _ _ _ _ (fun e => entry_ne_exit o 1 1 e.1),
      setB_other _ _ _ _ _ _ _ _ (fun e => entry_ne_exit o 1 0 e.1), setB_same]
    exact ⟨rfl, h1 p hp⟩
  · intro p hp q hq
    rw [(h4 p hp q hq).2]
    rfl

theorem angle3_solves (eq : Nat → (Nat → K) → Nat → Nat → Nat → K × K × K → K × (K × K × K))
    (src w) (nx ny nz bup) (s : St (Nat → Nat → K) K) (o a : Nat) (ho : o < 8)
    (hfit : nx ≤ 2 ^ 32) :
    Solves3 nx ny nz (eq a (src o a)) o (trace (angle3 eq src w nx ny nz true bup s o a) o a).1
      (trace (angle3 eq src w nx ny nz true bup s o a) o a).2 := by
  obtain ⟨t1, t2⟩ := tables3 o ho
  obtain ⟨h1, h2, h3, -, h5, -⟩ := plane3_sol (eq a (src o a)) true (w a) nx ny nz (at_ nx 0 o)
    (at_ ny 1 o) (at_ nz 2 o)
    (fun p hp q hq e => at_inj hp hq e) (fun p hp => at_lt hp) (fun p hp q hq e => at_inj hp hq e)
    (fun p hp => at_lt hp) (fun p hp q hq e => at_inj hp hq e)
    ⟨⟨0, bup s.bdy o a (in3 o).1 o a, bup s.bdy o a (in3 o).2.1 o a,
      bup s.bdy o a (in3 o).2.2 o a⟩, s.phi, s.psi o a⟩ nz (le_refl _)
  rw [← cells_eq, ← cells_eq, ← cells_eq] at h1 h2 h3 h5
  unfold Solves3 trace angle3
  rw [cellsU_eq _ _ _ hfit]
  simp only [if_true, setPsi_same, t1, t2] at h1 h2 h3 h5 ⊢
  simp only [← at_posn (n := nx) (o := o) (d := 0) (by omega) (by omega),
    ← at_posn (n := ny) (o := o) (d := 1) (by omega) (by omega),
    ← at_posn (n := nz) (o := o) (d := 2) (by omega) (by omega)]
  set E := fun p q t => eq a (src o a) (at_ nx 0 o p) (at_ ny 1 o q) (at_ nz 2 o t)
  set v0 := fun t q => bup s.bdy o a (entry o 0) o a (at_ nz 2 o t) (at_ ny 1 o q)
  set h0 := fun t p => bup s.bdy o a (entry o 1) o a (at_ nz 2 o t) (at_ nx 0 o p)
  set z0 := fun q p => bup s.bdy o a (entry o 2) o a (at_ ny 1 o q) (at_ nx 0 o p)
  refine ⟨fun p q t => rowX (fun p => E p q t)
      (solY (fun p q => E p q t) (v0 t) (h0 t) (solZ E v0 h0 z0 t) q) (solZ E v0 h0 z0 t q)
        (v0 t q) p,
    fun p q t => solY (fun p q => E p q t) (v0 t) (h0 t) (solZ E v0 h0 z0 t) q p,
    fun p q t => solZ E v0 h0 z0 t q p, ?_, ?_, ?_, ?_⟩
  · intro q hq t ht
    rw [setB_other _ _ _ _ _ _ _ _ (fun e => entry_ne_exit o 0 2 e.1),
      setB_other _ _ _ _ _ _ _ _ (fun e => entry_ne_exit o 0 1 e.1),
      setB_other _ _ _ _ _ _ _ _ (fun e => entry_ne_exit o 0 0 e.1),
      setB_other _ _ _ _ _ _ _ _ (fun e => absurd (exit_inj e.1) (by omega)),
      setB_other _ _ _ _ _ _ _ _ (fun e => absurd (exit_inj e.1) (by omega)), setB_same]
    exact ⟨rfl, h3 t ht q hq⟩
  · intro p hp t ht
    rw [setB_other _ _ _ _ _ _ _ _ (fun e => entry_ne_exit o 1 2 e.1),
      setB_other _ _ _ _ _ _ _ _ (fun e => entry_ne_exit o 1 1 e.1),
      setB_other _ _ _ _ _ _ _ _ (fun e => entry_ne_exit o 1 0 e.1),
      setB_other _ _ _ _ _ _ _ _ (fun e => absurd (exit_inj e.1) (by omega)), setB_same]
    exact ⟨rfl, h2 t ht p hp⟩
  · intro p hp q hq
    rw [setB_other _ _ _ _ _ _ _ _ (fun e => entry_ne_exit o 2 2 e.1),
      setB_other _ _ _ _ _ _ _ _ (fun e => entry_ne_exit o 2 1 e.1),
      setB_other _ _ _ _ _ _ _ _ (fun e => entry_ne_exit o 2 0 e.1), setB_same]
    exact ⟨rfl, h1 q hq p hp⟩
  · intro p hp q hq t ht
    rw [(h5 p hp q hq t ht).2]
    rfl

/-- 1-D: after a sweep that stores the angular flux, every direction's stored angular flux and
    boundary fluxes solve the cell equations along the row from the incident side to the other,
    and the scalar flux is the weighted sum of the stored angular fluxes. -/
theorem C28_sweep_solves_1D (eq : Nat → (Nat → K) → Nat → K → K × K) (src : Nat → Nat → Nat → K)
    (w : Nat → K) (nx na : Nat) (bup) (hb : OnlyIncident 1 bup) (order : List Nat)
    (hord : order.Perm (List.range 2)) (s : St K K) :
    let s' := sweepWith order na (angle1 eq src w nx true bup) s
    (∀ o < 2, ∀ a < na, Solves1 nx (eq a (src o a)) o (fun f => s'.bdy f o a) (s'.psi o a)) ∧
    ∀ c < nx, s'.phi c = ∑ o ∈ range 2, ∑ a ∈ range na, w a * s'.psi o a c := by
  intro s'
  have hmem : ∀ p ∈ pairs order na, p.1 < 2 := fun p hp =>
    List.mem_range.1 (hord.mem_iff.1 (mem_pairs.1 hp).1)
  have hnd : (pairs order na).Nodup := pairs_nodup (hord.nodup_iff.2 List.nodup_range) na
  have es : s' = (pairs order na).foldl (fun s p => angle1 eq src w nx true bup s p.1 p.2)
    { s with phi := fun _ => 0 } := sweepWith_eq _ _ _ _
  constructor
  · intro o ho a ha
    have := foldl_key_last (angle1 eq src w nx true bup) trace
      (fun o a X => Solves1 nx (eq a (src o a)) o X.1 X.2) (pairs order na) hnd
      (fun p hp s => angle1_solves eq src w nx bup s p.1 p.2 (hmem p hp))
      (fun p _ s q hq => trace1_other eq src w nx true bup hb s p q hq)
      { s with phi := fun _ => 0 } (o, a)
      (mem_pairs.2 ⟨hord.mem_iff.2 (List.mem_range.2 ho), ha⟩)
    rw [es]
    exact this
  · intro c hc
    have := foldl_keyed (angle1 eq src w nx true bup) trace (fun s => s.phi c)
      (fun _ a X => w a * X.2 c) (pairs order na) hnd (fun p hp s => by
        obtain ⟨-, h2, -⟩ := line1_sol (eq p.2 (src p.1 p.2)) true (w p.2) nx (at_ nx 0 p.1)
          (fun p hp q hq e => at_inj hp hq e)
          ⟨bup s.bdy p.1 p.2 (in1 p.1) p.1 p.2, s.phi, s.psi p.1 p.2⟩ nx (le_refl _)
        have h3 := h2 (at_ nx 0 p.1 c) (at_lt hc)
        rw [at_at hc, ← cells_eq] at h3
        simp only [trace, angle1, if_true, setPsi_same] at h3 ⊢
        rw [h3.1, h3.2])
      (fun p _ s q hq => trace1_other eq src w nx true bup hb s p q hq)
      { s with phi := fun _ => 0 }
    rw [← es] at this
    rw [this, ← pairs_sum order na 2 hord]
    simp [trace]

/-- 2-D. -/
theorem C28_sweep_solves_2D (eq : Nat → (Nat → K) → Nat → Nat → K × K → K × (K × K))
    (src : Nat → Nat → Nat → K) (w : Nat → K) (nx ny na : Nat) (bup) (hb : OnlyIncident 2 bup)
    (order : List Nat) (hord : order.Perm (List.range 4)) (s : St (Nat → K) K) :
    let s' := sweepWith order na (angle2 eq src w nx ny true bup) s
    (∀ o < 4, ∀ a < na, Solves2 nx ny (eq a (src o a)) o (fun f => s'.bdy f o a) (s'.psi o a)) ∧
    ∀ c < nx * ny, s'.phi c = ∑ o ∈ range 4, ∑ a ∈ range na, w a * s'.psi o a c := by
  intro s'
  have hmem : ∀ p ∈ pairs order na, p.1 < 4 := fun p hp =>
    List.mem_range.1 (hord.mem_iff.1 (mem_pairs.1 hp).1)
  have hnd : (pairs order na).Nodup := pairs_nodup (hord.nodup_iff.2 List.nodup_range) na
  have es : s' = (pairs order na).foldl (fun s p => angle2 eq src w nx ny true bup s p.1 p.2)
    { s with phi := fun _ => 0 } := sweepWith_eq _ _ _ _
  constructor
  · intro o ho a ha
    have := foldl_key_last (angle2 eq src w nx ny true bup) trace
      (fun o a X => Solves2 nx ny (eq a (src o a)) o X.1 X.2) (pairs order na) hnd
      (fun p hp s => angle2_solves eq src w nx ny bup s p.1 p.2 (hmem p hp))
      (fun p _ s q hq => trace2_other eq src w nx ny true bup hb s p q hq)
      { s with phi := fun _ => 0 } (o, a)
      (mem_pairs.2 ⟨hord.mem_iff.2 (List.mem_range.2 ho), ha⟩)
    rw [es]
    exact this
  · intro c hc
    have hnx : 0 < nx := by
      rcases Nat.eq_zero_or_pos nx with h | h
      · rw [h, Nat.zero_mul] at hc; omega
      · exact h
    have hi : c % nx < nx := Nat.mod_lt _ hnx
    have hj : c / nx < ny := Nat.div_lt_of_lt_mul hc
    have ec : c % nx + c / nx * nx = c := by
      have := Nat.div_add_mod c nx; rw [Nat.mul_comm] at this; omega
    have := foldl_keyed (angle2 eq src w nx ny true bup) trace (fun s => s.phi c)
      (fun _ a X => w a * X.2 c) (pairs order na) hnd (fun p hp s => by
        obtain ⟨-, -, -, h4, -⟩ := row2_sol (eq p.2 (src p.1 p.2)) true (w p.2) nx ny
          (at_ nx 0 p.1) (at_ ny 1 p.1)
          (fun p hp q hq e => at_inj hp hq e) (fun p hp => at_lt hp)
          (fun p hp q hq e => at_inj hp hq e)
          ⟨⟨0, bup s.bdy p.1 p.2 (in2 p.1).1 p.1 p.2, bup s.bdy p.1 p.2 (in2 p.1).2 p.1 p.2⟩,
            s.phi, s.psi p.1 p.2⟩ ny (le_refl _)
        have h3 := h4 (at_ nx 0 p.1 (c % nx)) (at_lt hi) (at_ ny 1 p.1 (c / nx)) (at_lt hj)
        rw [at_at hi, at_at hj, ← cells_eq, ← cells_eq, ec] at h3
        simp only [trace, angle2, if_true, setPsi_same] at h3 ⊢
        rw [h3.1, h3.2])
      (fun p _ s q hq => trace2_other eq src w nx ny true bup hb s p q hq)
      { s with phi := fun _ => 0 }
    rw [← es] at this
    rw [this, ← pairs_sum order na 4 hord]
    simp [trace]

/-- 3-D. -/
theorem C28_sweep_solves_3D
    (eq : Nat → (Nat → K) → Nat → Nat → Nat → K × K × K → K × (K × K × K))
    (src : Nat → Nat → Nat → K) (w : Nat → K) (nx ny nz na : Nat) (hfit : nx ≤ 2 ^ 32) (bup)
    (hb : OnlyIncident 3 bup)
    (order : List Nat) (hord : order.Perm (List.range 8)) (s : St (Nat → Nat → K) K) :
    let s' := sweepWith order na (angle3 eq src w nx ny nz true bup) s
    (∀ o < 8, ∀ a < na,
      Solves3 nx ny nz (eq a (src o a)) o (fun f => s'.bdy f o a) (s'.psi o a)) ∧
    ∀ c < nx * ny * nz, s'.phi c = ∑ o ∈ range 8, ∑ a ∈ range na, w a * s'.psi o a c := by
  intro s'
  have hmem : ∀ p ∈ pairs order na, p.1 < 8 := fun p hp =>
    List.mem_range.1 (hord.mem_iff.1 (mem_pairs.1 hp).1)
  have hnd : (pairs order na).Nodup := pairs_nodup (hord.nodup_iff.2 List.nodup_range) na
  have es : s' = (pairs order na).foldl (fun s p => angle3 eq src w nx ny nz true bup s p.1 p.2)
    { s with phi := fun _ => 0 } := sweepWith_eq _ _ _ _
  constructor
  · intro o ho a ha
    have := foldl_key_last (angle3 eq src w nx ny nz true bup) trace
      (fun o a X => Solves3 nx ny nz (eq a (src o a)) o X.1 X.2) (pairs order na) hnd
      (fun p hp s => angle3_solves eq src w nx ny nz bup s p.1 p.2 (hmem p hp) hfit)
      (fun p _ s q hq => trace3_other eq src w nx ny nz true bup hb s p q hq)
      { s with phi := fun _ => 0 } (o, a)
      (mem_pairs.2 ⟨hord.mem_iff.2 (List.mem_range.2 ho), ha⟩)
    rw [es]
    exact this
  · intro c hc
    obtain ⟨hi, hj, hk, ec⟩ : ∃ (_ : c % nx < nx) (_ : c / nx % ny < ny) (_ : c / nx / ny < nz),
        c % nx + c / nx % ny * nx + c / nx / ny * nx * ny = c := by
      have hnx : 0 < nx := by
        rcases Nat.eq_zero_or_pos nx with h | h
        · rw [h, Nat.zero_mul, Nat.zero_mul] at hc; omega
        · exact h
      have hny : 0 < ny := by
        rcases Nat.eq_zero_or_pos ny with h | h
        · rw [h, Nat.mul_zero, Nat.zero_mul] at hc; omega
        · exact h
      refine ⟨Nat.mod_lt _ hnx, Nat.mod_lt _ hny, ?_, ?_⟩
      · apply Nat.div_lt_of_lt_mul
        apply Nat.div_lt_of_lt_mul
        rw [← Nat.mul_assoc]; exact hc
      · have h1 := Nat.div_add_mod c nx
        have h2 := Nat.div_add_mod (c / nx) ny
        calc c % nx + c / nx % ny * nx + c / nx / ny * nx * ny
            = c % nx + nx * (ny * (c / nx / ny) + c / nx % ny) := by ring
          _ = c := by rw [h2]; omega
    have := foldl_keyed (angle3 eq src w nx ny nz true bup) trace (fun s => s.phi c)
      (fun _ a X => w a * X.2 c) (pairs order na) hnd (fun p hp s => by
        obtain ⟨-, -, -, -, h5, -⟩ := plane3_sol (eq p.2 (src p.1 p.2)) true (w p.2) nx ny nz
          (at_ nx 0 p.1) (at_ ny 1 p.1) (at_ nz 2 p.1)
          (fun p hp q hq e => at_inj hp hq e) (fun p hp => at_lt hp)
          (fun p hp q hq e => at_inj hp hq e) (fun p hp => at_lt hp)
          (fun p hp q hq e => at_inj hp hq e)
          ⟨⟨0, bup s.bdy p.1 p.2 (in3 p.1).1 p.1 p.2, bup s.bdy p.1 p.2 (in3 p.1).2.1 p.1 p.2,
            bup s.bdy p.1 p.2 (in3 p.1).2.2 p.1 p.2⟩,
            s.phi, s.psi p.1 p.2⟩ nz (le_refl _)
        have h3 := h5 (at_ nx 0 p.1 (c % nx)) (at_lt hi) (at_ ny 1 p.1 (c / nx % ny)) (at_lt hj)
          (at_ nz 2 p.1 (c / nx / ny)) (at_lt hk)
        simp only [] at h3
        rw [at_at hi, at_at hj, at_at hk, ← cells_eq, ← cells_eq, ← cells_eq, ec] at h3
        simp only [trace, angle3, if_true, setPsi_same] at h3 ⊢
        rw [cellsU_eq _ _ _ hfit, h3.1, h3.2])
      (fun p _ s q hq => trace3_other eq src w nx ny nz true bup hb s p q hq)
      { s with phi := fun _ => 0 }
    rw [← es] at this
    rw [this, ← pairs_sum order na 8 hord]
    simp [trace]

/-- A concrete 2-D sweep (diamond differences, vacuum boundary, one angle, 2×2 cells). -/
example :
    let s' := sweepWith [0, 2, 1, 3] 1
      (angle2 (mesh2 dd2 (fun _ => 1 / 2) (fun _ => 1 / 3) (fun _ => 1) (fun _ => 1) (fun _ => 1) 2)
        (fun _ _ c => (c : ℚ) + 1) (fun _ => 1) 2 2 true (fun b _ _ => b))
      ⟨fun _ _ _ _ => 0, fun _ => 7, fun _ _ _ => 0⟩
    s'.psi 0 0 0 = 3 / 8 ∧ s'.phi 0 = 39 / 8 := by
  decide +kernel

end solves

end Detran.Sweep
