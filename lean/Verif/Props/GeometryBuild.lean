import Verif.Lemmas.Geometry
import Verif.Props.Geometry
import Mathlib.Tactic.IntervalCases

/-!
# C69, C70, C71: pin-cell regions, geometries built from meshes, translated regions
-/

namespace Detran.Geom

variable {K : Type} [Field K] [LinearOrder K] [IsStrictOrderedRing K]

/-! ## Regions made of half spaces -/

/-- The condition a (possibly still empty) region imposes. -/
def holds (g : Region K) (p : Pt K) : Bool := match g.node with
  | none => true
  | some n => n.contains p

omit [IsStrictOrderedRing K] in
theorem holds_append (g : Region K) (s : Quad K) (b : Bool) (p : Pt K) :
    holds (g.appendSurface s b) p = (holds g p && (s.sense p == b)) := by
  unfold Region.appendSurface Region.append holds
  cases g.node <;> simp [Node.contains]

omit [IsStrictOrderedRing K] in
theorem node_append (g : Region K) (s : Quad K) (b : Bool) :
    (g.appendSurface s b).node.isSome = true := by
  unfold Region.appendSurface Region.append
  cases g.node <;> simp

omit [IsStrictOrderedRing K] in
theorem mat_append (g : Region K) (s : Quad K) (b : Bool) : (g.appendSurface s b).mat = g.mat := by
  unfold Region.appendSurface Region.append
  cases g.node <;> simp

theorem contains_holds (g : Region K) (p : Pt K) (h : g.node.isSome = true) :
    g.contains p = some (holds g p) := by
  obtain ⟨n, hn⟩ := Option.isSome_iff_exists.1 h
  rw [C58_contains_partial g n hn, holds, hn]

theorem getElem?_blocks {α : Type} (n : Nat) (f : Nat → List α) (hf : ∀ b, (f b).length = n) :
    ∀ (m a b : Nat), a < n → b < m → ((List.range m).flatMap f)[a + b * n]? = (f b)[a]? := by
  intro m
  induction m with
  | zero => intro a b _ hb; exact absurd hb (Nat.not_lt_zero _)
  | succ m ih =>
    intro a b ha hb
    have hlen : ((List.range m).flatMap f).length = m * n := by
      rw [List.length_flatMap, List.map_congr_left (g := fun _ => n) (fun x _ => hf x)]
      simp
    rw [List.range_succ, List.flatMap_append, List.getElem?_append, hlen]
    by_cases hbm : b < m
    · rw [if_pos, ih a b ha hbm]
      calc a + b * n < n + b * n := by omega
        _ = (b + 1) * n := by ring
        _ ≤ m * n := Nat.mul_le_mul_right _ hbm
    · have : b = m := by omega
      subst this
      rw [if_neg (by omega)]
      simp

theorem length_blocks {α : Type} (n : Nat) (f : Nat → List α) (hf : ∀ b, (f b).length = n) (m : Nat) :
    ((List.range m).flatMap f).length = m * n := by
  rw [List.length_flatMap, List.map_congr_left (g := fun _ => n) (fun x _ => hf x)]
  simp

/-! ## Point location -/

theorem find_go_spec (p : Pt K) : ∀ (gs : List (Region K)) (c i : Nat) (g : Region K),
    gs[c]? = some g → g.contains p = some true →
    (∀ k < c, ∀ g', gs[k]? = some g' → g'.contains p = some false) →
    find.go p gs i = some ((i + c : Nat) : Int) := by
  intro gs
  induction gs with
  | nil => intro c i g h; simp at h
  | cons a gs ih =>
    intro c i g h hg hk
    cases c with
    | zero =>
      rw [List.getElem?_cons_zero, Option.some.injEq] at h
      rw [find.go, h, hg]
      rfl
    | succ c =>
      rw [List.getElem?_cons_succ] at h
      rw [find.go, hk 0 (Nat.succ_pos _) a rfl, ih c (i + 1) g h hg]
      · rw [show i + 1 + c = i + (c + 1) by omega]
      · intro k hkc g' hg'
        exact hk (k + 1) (by omega) g' (by rw [List.getElem?_cons_succ]; exact hg')

theorem find_go_none (p : Pt K) : ∀ (gs : List (Region K)) (i : Nat),
    (∀ g ∈ gs, g.contains p = some false) → find.go p gs i = some (-1) := by
  intro gs
  induction gs with
  | nil => intro i _; rfl
  | cons a gs ih =>
    intro i h
    rw [find.go, h a List.mem_cons_self]
    exact ih (i + 1) fun g hg => h g (List.mem_cons_of_mem _ hg)

/-! ## C70: geometry of a mesh -/

/-- Specification: position of the `i`-th edge, starting at zero. -/
def edgeAt (w : Nat → K) (i : Nat) : K := ((List.range i).map w).sum

/-- Specification: the point lies in cell `i` of an axis. -/
def InCell (w : Nat → K) (i : Nat) (x : K) : Prop := edgeAt w i ≤ x ∧ x < edgeAt w (i + 1)

omit [LinearOrder K] [IsStrictOrderedRing K] in
theorem edge_eq (w : Nat → K) (i : Nat) : edge w i = edgeAt w i := by
  have : ∀ (l : List Nat) (e : K), l.foldl (fun e k => e + w k) e = e + (l.map w).sum := by
    intro l
    induction l with
    | nil => intro e; simp
    | cons a l ih => intro e; rw [List.foldl_cons, ih, List.map_cons, List.sum_cons]; ring
  unfold edge edgeAt
  rw [this, zero_add]

omit [LinearOrder K] [IsStrictOrderedRing K] in
theorem edgeAt_succ (w : Nat → K) (i : Nat) : edgeAt w (i + 1) = edgeAt w i + w i := by
  unfold edgeAt
  rw [List.range_succ, List.map_append, List.sum_append]
  simp

theorem edgeAt_mono (w : Nat → K) (n : Nat) (hw : ∀ i < n, 0 < w i) :
    ∀ j ≤ n, ∀ i ≤ j, edgeAt w i ≤ edgeAt w j := by
  intro j
  induction j with
  | zero => intro _ i hi; rw [Nat.le_zero.1 hi]
  | succ j ih =>
    intro hj i hi
    rcases Nat.lt_or_ge i (j + 1) with h | h
    · rw [edgeAt_succ]
      have := ih (by omega) i (by omega)
      have := hw j (by omega)
      linarith
    · rw [show i = j + 1 by omega]

theorem inCell_unique (w : Nat → K) (n : Nat) (hw : ∀ i < n, 0 < w i) {i j : Nat} (hi : i < n)
    (hj : j < n) {x : K} (h1 : InCell w i x) (h2 : InCell w j x) : i = j := by
  rcases Nat.lt_trichotomy i j with h | h | h
  · have := edgeAt_mono w n hw j (by omega) (i + 1) (by omega)
    exact absurd (lt_of_lt_of_le h1.2 this) (not_lt.2 h2.1)
  · exact h
  · have := edgeAt_mono w n hw i (by omega) (j + 1) (by omega)
    exact absurd (lt_of_lt_of_le h2.2 this) (not_lt.2 h1.1)

omit [IsStrictOrderedRing K] in
theorem sense_beq (s : Quad K) (p : Pt K) (b : Bool) :
    (s.sense p == b) = true ↔ (if b then 0 ≤ s.f p else s.f p < 0) := by
  cases b
  · simp [sense_false]
  · simp [sense_true]

theorem cell_contains (dim : Nat) (w : Nat → Nat → K) (mat i j k : Nat) (p : Pt K) :
    (cellRegion dim w mat i j k).contains p = some true ↔
      InCell (w 0) i p.x ∧ InCell (w 1) j p.y ∧ (dim = 3 → InCell (w 2) k p.z) := by
  have hsome : (cellRegion dim w mat i j k).node.isSome = true := by
    unfold cellRegion
    dsimp only
    split_ifs <;> exact node_append _ _ _
  rw [contains_holds _ _ hsome, Option.some.injEq]
  unfold cellRegion InCell
  dsimp only
  split_ifs with h
  · simp only [holds_append, Bool.and_eq_true, sense_beq, edge_eq, h, true_implies]
    simp only [holds, Quad.f, plane, true_and, if_true, Bool.false_eq_true, if_false]
    constructor
    · rintro ⟨⟨⟨⟨⟨a, b⟩, c⟩, d⟩, e⟩, f⟩
      refine ⟨⟨?_, ?_⟩, ⟨?_, ?_⟩, ?_, ?_⟩ <;> linarith
    · rintro ⟨⟨a, b⟩, ⟨c, d⟩, e, f⟩
      refine ⟨⟨⟨⟨⟨?_, ?_⟩, ?_⟩, ?_⟩, ?_⟩, ?_⟩ <;> linarith
  · simp only [holds_append, Bool.and_eq_true, sense_beq, edge_eq, h, false_implies, and_true]
    simp only [holds, Quad.f, plane, true_and, if_true, Bool.false_eq_true, if_false]
    constructor
    · rintro ⟨⟨⟨a, b⟩, c⟩, d⟩
      refine ⟨⟨?_, ?_⟩, ?_, ?_⟩ <;> linarith
    · rintro ⟨⟨a, b⟩, c, d⟩
      refine ⟨⟨⟨?_, ?_⟩, ?_⟩, ?_⟩ <;> linarith

theorem cell_contains_some (dim : Nat) (w : Nat → Nat → K) (mat i j k : Nat) (p : Pt K) :
    ∃ b, (cellRegion dim w mat i j k).contains p = some b := by
  have hsome : (cellRegion dim w mat i j k).node.isSome = true := by
    unfold cellRegion
    dsimp only
    split_ifs <;> exact node_append _ _ _
  exact ⟨_, contains_holds _ _ hsome⟩

omit [IsStrictOrderedRing K] in
theorem cell_mat (dim : Nat) (w : Nat → Nat → K) (mat i j k : Nat) :
    (cellRegion dim w mat i j k).mat = mat := by
  unfold cellRegion
  dsimp only
  split_ifs <;> simp only [mat_append]

omit [IsStrictOrderedRing K] in
theorem ofMesh_get (dim : Nat) (n : Nat → Nat) (w : Nat → Nat → K) (mat : Nat → Nat) {i j k : Nat}
    (hi : i < n 0) (hj : j < n 1) (hk : k < n 2) :
    (ofMesh dim n w mat)[i + n 0 * (j + n 1 * k)]? =
      some (cellRegion dim w (mat (i + n 0 * (j + n 1 * k))) i j k) := by
  have hinner : ∀ k, ((List.range (n 1)).flatMap fun j => (List.range (n 0)).map fun i =>
      cellRegion dim w (mat (i + n 0 * (j + n 1 * k))) i j k).length = n 1 * n 0 :=
    fun k => length_blocks (n 0) _ (fun j => by simp) (n 1)
  have hlt : i + j * n 0 < n 1 * n 0 := by
    calc i + j * n 0 < n 0 + j * n 0 := by omega
      _ = (j + 1) * n 0 := by ring
      _ ≤ n 1 * n 0 := Nat.mul_le_mul_right _ hj
  have e : i + n 0 * (j + n 1 * k) = (i + j * n 0) + k * (n 1 * n 0) := by ring
  unfold ofMesh
  rw [e, getElem?_blocks (n 1 * n 0) _ hinner (n 2) _ k hlt hk,
    getElem?_blocks (n 0) _ (fun j => by simp) (n 1) i j hi hj]
  rw [List.getElem?_map, List.getElem?_range hi, Option.map_some, ← e]

omit [IsStrictOrderedRing K] in
theorem mem_ofMesh (dim : Nat) (n : Nat → Nat) (w : Nat → Nat → K) (mat : Nat → Nat) (c : Nat)
    (g : Region K) (h : (ofMesh dim n w mat)[c]? = some g) :
    ∃ i j k, i < n 0 ∧ j < n 1 ∧ k < n 2 ∧ c = i + n 0 * (j + n 1 * k) ∧
      g = cellRegion dim w (mat c) i j k := by
  have hinner : ∀ k, ((List.range (n 1)).flatMap fun j => (List.range (n 0)).map fun i =>
      cellRegion dim w (mat (i + n 0 * (j + n 1 * k))) i j k).length = n 1 * n 0 :=
    fun k => length_blocks (n 0) _ (fun j => by simp) (n 1)
  have hlen : (ofMesh dim n w mat).length = n 2 * (n 1 * n 0) :=
    length_blocks (n 1 * n 0) _ hinner (n 2)
  have hc : c < n 2 * (n 1 * n 0) := by
    rw [← hlen]
    by_contra hc
    rw [List.getElem?_eq_none (not_lt.1 hc)] at h
    cases h
  have h10 : 0 < n 1 * n 0 := Nat.pos_of_ne_zero (by rintro e; rw [e] at hc; simp at hc)
  have h0 : 0 < n 0 := Nat.pos_of_ne_zero (by rintro e; rw [e] at h10; simp at h10)
  have h1 : 0 < n 1 := Nat.pos_of_ne_zero (by rintro e; rw [e] at h10; simp at h10)
  have hi : c % n 0 < n 0 := Nat.mod_lt _ h0
  have hj : c / n 0 % n 1 < n 1 := Nat.mod_lt _ h1
  have hk : c / n 0 / n 1 < n 2 := by
    rw [Nat.div_div_eq_div_mul, Nat.div_lt_iff_lt_mul (Nat.mul_pos h0 h1)]
    calc c < n 2 * (n 1 * n 0) := hc
      _ = n 2 * (n 0 * n 1) := by ring
  have e : c = c % n 0 + n 0 * (c / n 0 % n 1 + n 1 * (c / n 0 / n 1)) := by
    rw [Nat.mod_add_div, Nat.mod_add_div]
  refine ⟨_, _, _, hi, hj, hk, e, ?_⟩
  have := ofMesh_get dim n w mat hi hj hk
  rw [← e, h, Option.some.injEq] at this
  exact this

/-- C70: a geometry built from a mesh finds, for every point of the mesh, the number of the cell it
    lies in (cells in storage order), and gives that region the cell's material. -/
theorem C70_find (dim : Nat) (n : Nat → Nat) (w : Nat → Nat → K) (mat : Nat → Nat)
    (hd : dim = 3 ∨ n 2 = 1) (hw : ∀ d, ∀ i < n d, 0 < w d i) (p : Pt K) (i j k : Nat)
    (hi : i < n 0) (hj : j < n 1) (hk : k < n 2) (hx : InCell (w 0) i p.x)
    (hy : InCell (w 1) j p.y) (hz : dim = 3 → InCell (w 2) k p.z) :
    find (ofMesh dim n w mat) p = some ((i + n 0 * (j + n 1 * k) : Nat) : Int) ∧
    ((ofMesh dim n w mat)[i + n 0 * (j + n 1 * k)]?).map Region.mat =
      some (mat (i + n 0 * (j + n 1 * k))) := by
  constructor
  · unfold find
    rw [find_go_spec p _ (i + n 0 * (j + n 1 * k)) 0 _ (ofMesh_get dim n w mat hi hj hk)
      ((cell_contains _ _ _ _ _ _ _).2 ⟨hx, hy, hz⟩), Nat.zero_add]
    intro c hc g hg
    obtain ⟨i', j', k', hi', hj', hk', rfl, rfl⟩ := mem_ofMesh dim n w mat c g hg
    obtain ⟨b, hb⟩ := cell_contains_some dim w (mat (i' + n 0 * (j' + n 1 * k'))) i' j' k' p
    cases b with
    | false => exact hb
    | true =>
      exfalso
      obtain ⟨hx', hy', hz'⟩ := (cell_contains _ _ _ _ _ _ _).1 hb
      have e1 := inCell_unique (w 0) (n 0) (hw 0) hi' hi hx' hx
      have e2 := inCell_unique (w 1) (n 1) (hw 1) hj' hj hy' hy
      have e3 : k' = k := by
        rcases hd with hd | hd
        · exact inCell_unique (w 2) (n 2) (hw 2) hk' hk (hz' hd) (hz hd)
        · omega
      rw [e1, e2, e3] at hc
      exact lt_irrefl _ hc
  · rw [ofMesh_get dim n w mat hi hj hk, Option.map_some, cell_mat]

/-- C70: a point outside every cell is reported as outside. -/
theorem C70_outside (dim : Nat) (n : Nat → Nat) (w : Nat → Nat → K) (mat : Nat → Nat) (p : Pt K)
    (h : ∀ i < n 0, ∀ j < n 1, ∀ k < n 2, ¬ (InCell (w 0) i p.x ∧ InCell (w 1) j p.y ∧
      (dim = 3 → InCell (w 2) k p.z))) :
    find (ofMesh dim n w mat) p = some (-1) := by
  unfold find
  refine find_go_none p _ 0 fun g hg => ?_
  obtain ⟨c, hc⟩ := List.mem_iff_getElem?.1 hg
  obtain ⟨i, j, k, hi, hj, hk, _, rfl⟩ := mem_ofMesh dim n w mat c g hc
  obtain ⟨b, hb⟩ := cell_contains_some dim w (mat c) i j k p
  cases b with
  | false => exact hb
  | true => exact absurd ((cell_contains _ _ _ _ _ _ _).1 hb) (h i hi j hj k hk)

example : find (ofMesh 2 (fun d => if d = 2 then 1 else 3) (fun _ i => (i : ℚ) + 1) fun c => c)
    ⟨2, 1 / 2, 7⟩ = some 1 ∧
    find (ofMesh 2 (fun d => if d = 2 then 1 else 3) (fun _ i => (i : ℚ) + 1) fun c => c)
    ⟨6, 1 / 2, 7⟩ = some (-1) := by decide +kernel

/-! ## C69: pin cells -/

/-- The point is in sector `a`. -/
def inSector (ps : List (Quad K × Bool)) (a : Nat) (p : Pt K) : Bool :=
  match ps[a % ps.length]?, ps[(a + 1) % ps.length]? with
  | some s0, some s1 => (s0.1.sense p == sense0 ps a) && (s1.1.sense p == sense1 ps a)
  | _, _ => true

/-- Sector table for one pair of planes. -/
def tab2 (l0 l1 b0 b1 : Bool) (a : Nat) : Bool :=
  match a with
  | 0 => (b0 == l0) && (b1 == !l1)
  | 1 => (b1 == l1) && (b0 == l0)
  | 2 => (b0 == !l0) && (b1 == l1)
  | _ => (b1 == !l1) && (b0 == !l0)

/-- Sector table for two pairs of planes. -/
def tab4 (b0 b1 b2 b3 : Bool) (a : Nat) : Bool :=
  match a with
  | 0 => (b0 == true) && (b1 == true)
  | 1 => (b1 == false) && (b2 == true)
  | 2 => (b2 == false) && (b3 == true)
  | 3 => (b3 == false) && (b0 == true)
  | 4 => (b0 == false) && (b1 == false)
  | 5 => (b1 == true) && (b2 == false)
  | 6 => (b2 == true) && (b3 == false)
  | _ => (b3 == true) && (b0 == false)

theorem tab2_unique : ∀ l0 l1 b0 b1 : Bool, ∃ a < 4, tab2 l0 l1 b0 b1 a = true ∧
    ∀ a' < 4, tab2 l0 l1 b0 b1 a' = true → a' = a := by decide

theorem tab4_unique : ∀ b0 b1 b2 b3 : Bool, (b0 = true → b2 = true → b3 = true) →
    (b0 = false → b2 = false → b3 = false) → (b0 = true → b2 = false → b1 = false) →
    (b0 = false → b2 = true → b1 = true) → ∃ a < 8, tab4 b0 b1 b2 b3 a = true ∧
    ∀ a' < 8, tab4 b0 b1 b2 b3 a' = true → a' = a := by decide

omit [IsStrictOrderedRing K] in
theorem sector2 (q0 q1 : Quad K) (l0 l1 : Bool) (p : Pt K) (a : Nat) (ha : a < 4) :
    inSector [(q0, l0), (q1, l1)] a p = tab2 l0 l1 (q0.sense p) (q1.sense p) a := by
  interval_cases a <;> simp [inSector, tab2, sense0, sense1]

omit [IsStrictOrderedRing K] in
theorem sector4 (q0 q1 q2 q3 : Quad K) (p : Pt K) (a : Nat) (ha : a < 8) :
    inSector [(q0, true), (q1, false), (q2, false), (q3, false)] a p =
      tab4 (q0.sense p) (q1.sense p) (q2.sense p) (q3.sense p) a := by
  interval_cases a <;> simp [inSector, tab4, sense0, sense1]

/-- Every point is in exactly one sector. -/
theorem sector_unique (P : Pin K) (hx : 0 < P.pitch.x) (hy : 0 < P.pitch.y)
    (hc : P.div = 3 → P.center.x = 0 ∧ P.center.y = 0) (p : Pt K) :
    ∃ a < max 1 (2 * P.partitions.length), inSector P.partitions a p = true ∧
      ∀ a' < max 1 (2 * P.partitions.length), inSector P.partitions a' p = true → a' = a := by
  by_cases h1 : P.div = 1
  · have e : P.partitions = [(planeY (1 / 2 * P.pitch.y - P.center.y), true),
        (planeX (1 / 2 * P.pitch.x - P.center.x), false)] := by
      simp [Pin.partitions, h1]
    rw [e]
    simp only [List.length_cons, List.length_nil]
    obtain ⟨a, ha, h2, h3⟩ := tab2_unique true false
      ((planeY (1 / 2 * P.pitch.y - P.center.y)).sense p)
      ((planeX (1 / 2 * P.pitch.x - P.center.x)).sense p)
    exact ⟨a, ha, by rw [sector2 _ _ _ _ _ _ ha]; exact h2,
      fun a' ha' h' => h3 a' ha' (by rw [← sector2 _ _ _ _ _ _ ha']; exact h')⟩
  by_cases h2 : P.div = 2
  · have e : P.partitions = [(plane (P.pitch.y / P.pitch.x) (-1) 0 0, false),
        (plane (P.pitch.y / P.pitch.x) 1 0 P.pitch.y, false)] := by
      simp [Pin.partitions, h2]
    rw [e]
    simp only [List.length_cons, List.length_nil]
    obtain ⟨a, ha, h2, h3⟩ := tab2_unique false false
      ((plane (P.pitch.y / P.pitch.x) (-1) 0 0).sense p)
      ((plane (P.pitch.y / P.pitch.x) 1 0 P.pitch.y).sense p)
    exact ⟨a, ha, by rw [sector2 _ _ _ _ _ _ ha]; exact h2,
      fun a' ha' h' => h3 a' ha' (by rw [← sector2 _ _ _ _ _ _ ha']; exact h')⟩
  by_cases h3 : P.div = 3
  · obtain ⟨c1, c2⟩ := hc h3
    have e : P.partitions = [(planeY (1 / 2 * P.pitch.y), true),
        (plane (P.pitch.y / P.pitch.x) (-1) 0 0, false), (planeX (1 / 2 * P.pitch.x), false),
        (plane (P.pitch.y / P.pitch.x) 1 0 P.pitch.y, false)] := by
      simp [Pin.partitions, h3, c1, c2]
    rw [e]
    simp only [List.length_cons, List.length_nil]
    have f0 : (planeY (1 / 2 * P.pitch.y)).f p = p.y - 1 / 2 * P.pitch.y := by
      simp only [Quad.f, planeY]; ring
    have f2 : (planeX (1 / 2 * P.pitch.x)).f p = p.x - 1 / 2 * P.pitch.x := by
      simp only [Quad.f, planeX]; ring
    have hk : 0 < P.pitch.y / P.pitch.x := div_pos hy hx
    have hkx : P.pitch.y / P.pitch.x * P.pitch.x = P.pitch.y := div_mul_cancel₀ _ (ne_of_gt hx)
    have f1 : (plane (P.pitch.y / P.pitch.x) (-1) 0 0).f p =
        P.pitch.y / P.pitch.x * (p.x - 1 / 2 * P.pitch.x) - (p.y - 1 / 2 * P.pitch.y) := by
      simp only [Quad.f, plane]; linear_combination 1 / 2 * hkx
    have f3 : (plane (P.pitch.y / P.pitch.x) 1 0 P.pitch.y).f p =
        P.pitch.y / P.pitch.x * (p.x - 1 / 2 * P.pitch.x) + (p.y - 1 / 2 * P.pitch.y) := by
      simp only [Quad.f, plane]; linear_combination 1 / 2 * hkx
    obtain ⟨a, ha, h2, h3⟩ := tab4_unique
      ((planeY (1 / 2 * P.pitch.y)).sense p) ((plane (P.pitch.y / P.pitch.x) (-1) 0 0).sense p)
      ((planeX (1 / 2 * P.pitch.x)).sense p) ((plane (P.pitch.y / P.pitch.x) 1 0 P.pitch.y).sense p)
      (by
        rw [sense_true, sense_true, sense_true, f0, f2, f3]
        intro ha hb
        have := mul_nonneg (le_of_lt hk) hb
        linarith)
      (by
        rw [sense_false, sense_false, sense_false, f0, f2, f3]
        intro ha hb
        have := mul_neg_of_pos_of_neg hk hb
        linarith)
      (by
        rw [sense_true, sense_false, sense_false, f0, f2, f1]
        intro ha hb
        have := mul_neg_of_pos_of_neg hk hb
        linarith)
      (by
        rw [sense_false, sense_true, sense_true, f0, f2, f1]
        intro ha hb
        have := mul_nonneg (le_of_lt hk) hb
        linarith)
    exact ⟨a, ha, by rw [sector4 _ _ _ _ _ _ ha]; exact h2,
      fun a' ha' h' => h3 a' ha' (by rw [← sector4 _ _ _ _ _ _ ha']; exact h')⟩
  · have e : P.partitions = [] := by simp [Pin.partitions, h1, h2, h3]
    rw [e]
    refine ⟨0, by simp, by simp [inSector], fun a' ha' _ => ?_⟩
    simp at ha'
    exact ha'

/-- Specification: squared distance from the pin's axis. -/
def axis2 (P : Pin K) (p : Pt K) : K :=
  (p.x - (P.center.x + P.pitch.x / 2)) ^ 2 + (p.y - (P.center.y + P.pitch.y / 2)) ^ 2

/-- Specification: the pin cell (half open; all of z if the pitch has no z extent). -/
def InPin (P : Pin K) (p : Pt K) : Prop :=
  0 ≤ p.x ∧ p.x < P.pitch.x ∧ 0 ≤ p.y ∧ p.y < P.pitch.y ∧
    (0 < P.pitch.z → 0 ≤ p.z ∧ p.z < P.pitch.z)

theorem cyl_f (P : Pin K) (i : Nat) (p : Pt K) :
    (P.cyl i).f p = axis2 P p - P.radii.getD i 0 ^ 2 := by
  simp only [Pin.cyl, cylZ, Quad.f, axis2]; ring

/-- The outer boundary condition appended to the outermost regions. -/
theorem bounds_holds (P : Pin K) (g : Region K) (p : Pt K) :
    holds (P.addBounds g) p = true ↔ holds g p = true ∧ InPin P p := by
  unfold InPin Pin.addBounds
  by_cases hz : 0 < P.pitch.z
  · simp only [Pin.bounds, List.zipIdx_cons, List.zipIdx_nil, List.foldl_cons, List.foldl_nil, if_pos hz,
      holds_append, Bool.and_eq_true, sense_beq]
    simp [Quad.f, planeX, planeY, planeZ, hz]
    tauto
  · simp only [Pin.bounds, List.zipIdx_cons, List.zipIdx_nil, List.foldl_cons, List.foldl_nil, if_neg hz,
      holds_append, Bool.and_eq_true, sense_beq]
    simp [Quad.f, planeX, planeY, hz]
    tauto

omit [IsStrictOrderedRing K] in
theorem bounds_node (P : Pin K) (g : Region K) :
    (P.addBounds g).node.isSome = true ∧ (P.addBounds g).mat = g.mat := by
  unfold Pin.addBounds
  by_cases hz : 0 < P.pitch.z
  · simp only [Pin.bounds, List.zipIdx_cons, List.zipIdx_nil, List.foldl_cons, List.foldl_nil, if_pos hz,
      mat_append]
    exact ⟨node_append _ _ _, trivial⟩
  · simp only [Pin.bounds, List.zipIdx_cons, List.zipIdx_nil, List.foldl_cons, List.foldl_nil, if_neg hz,
      mat_append]
    exact ⟨node_append _ _ _, trivial⟩

omit [IsStrictOrderedRing K] in
theorem sector_node (ps : List (Quad K × Bool)) (a : Nat) (g : Region K) :
    (g.node.isSome = true → (addSector ps a g).node.isSome = true) ∧ (addSector ps a g).mat = g.mat := by
  unfold addSector
  by_cases hn : ps.length ≠ 0
  · rw [if_pos hn]
    cases ps[a % ps.length]? with
    | none => exact ⟨id, rfl⟩
    | some s0 =>
      cases ps[(a + 1) % ps.length]? with
      | none => exact ⟨id, rfl⟩
      | some s1 => exact ⟨fun _ => node_append _ _ _, by simp only [mat_append]⟩
  · rw [if_neg hn]; exact ⟨id, rfl⟩

theorem sector_holds (ps : List (Quad K × Bool)) (a : Nat) (g : Region K) (p : Pt K)
    (hg : g.node.isSome = true) : (addSector ps a g).contains p = some true ↔
      holds g p = true ∧ inSector ps a p = true := by
  unfold inSector addSector
  by_cases hn : ps.length ≠ 0
  · rw [if_pos hn]
    cases ps[a % ps.length]? with
    | none => simp [contains_holds g p hg]
    | some s0 =>
      cases ps[(a + 1) % ps.length]? with
      | none => simp [contains_holds g p hg]
      | some s1 =>
        simp only
        rw [contains_holds _ _ (node_append _ _ _), Option.some.injEq, holds_append, holds_append]
        simp only [Bool.and_eq_true, and_assoc]
  · rw [if_neg hn]
    have h0 : ps = [] := List.eq_nil_of_length_eq_zero (by simpa using hn)
    simp [h0, contains_holds g p hg]

/-- C69: what each region of a pin cell contains. -/
theorem pin_region_holds (P : Pin K) (r a : Nat) (hr : r ≤ P.radii.length) (p : Pt K) :
    (P.region r a).contains p = some true ↔
      (r < P.radii.length → axis2 P p < P.radii.getD r 0 ^ 2) ∧
      (0 < r → P.radii.getD (r - 1) 0 ^ 2 ≤ axis2 P p) ∧
      (r = P.radii.length → InPin P p) ∧ inSector P.partitions a p = true := by
  unfold Pin.region
  dsimp only
  rcases Nat.lt_or_ge r P.radii.length with h | h
  · have hr' : r ≠ P.radii.length := by omega
    have hl : 0 < P.radii.length := by omega
    rw [if_pos h, if_neg hr']
    by_cases h0 : 0 < r
    · rw [if_pos ⟨h0, hl⟩, sector_holds _ _ _ _ (node_append _ _ _), holds_append, holds_append]
      simp only [Bool.and_eq_true, sense_beq, cyl_f, h, hr', h0, true_implies, false_implies, holds]
      simp
      tauto
    · rw [if_neg (fun h => h0 h.1), sector_holds _ _ _ _ (node_append _ _ _), holds_append]
      simp only [Bool.and_eq_true, sense_beq, cyl_f, h, hr', h0, true_implies, false_implies, holds]
      simp
  · have hr' : r = P.radii.length := by omega
    have hnl : ¬ r < P.radii.length := by omega
    rw [if_neg hnl]
    rw [if_pos hr']
    by_cases h0 : 0 < r
    · rw [if_pos ⟨h0, by omega⟩, sector_holds _ _ _ _ (bounds_node _ _).1, bounds_holds, holds_append]
      have h0' : 0 < P.radii.length := by omega
      subst hr'
      simp only [Bool.and_eq_true, sense_beq, cyl_f, hnl, h0', true_implies, false_implies, holds]
      simp
      tauto
    · rw [if_neg (fun h => h0 h.1), sector_holds _ _ _ _ (bounds_node _ _).1, bounds_holds]
      simp only [hnl, h0, hr', true_implies, false_implies, holds]
      simp
      intro _ _ hpos
      exact absurd (by omega) h0

omit [IsStrictOrderedRing K] in
theorem pin_region_node (P : Pin K) (r a : Nat) (hr : r ≤ P.radii.length) :
    (P.region r a).node.isSome = true := by
  unfold Pin.region
  dsimp only
  apply (sector_node _ _ _).1
  rcases Nat.lt_or_ge r P.radii.length with h | h
  · rw [if_pos h, if_neg (show r ≠ P.radii.length by omega)]
    split_ifs <;> exact node_append _ _ _
  · rw [if_pos (show r = P.radii.length by omega)]
    exact (bounds_node _ _).1

/-- Exactly one annulus. -/
theorem annulus_unique (R : List K) (h0 : ∀ x ∈ R, 0 ≤ x) (hR : R.Pairwise (· < ·)) (d : K) :
    ∃ r ≤ R.length, ((r < R.length → d < R.getD r 0 ^ 2) ∧ (0 < r → R.getD (r - 1) 0 ^ 2 ≤ d)) ∧
      ∀ r' ≤ R.length, ((r' < R.length → d < R.getD r' 0 ^ 2) ∧
        (0 < r' → R.getD (r' - 1) 0 ^ 2 ≤ d)) → r' = r := by
  have mono : ∀ i j, i ≤ j → j < R.length → R.getD i 0 ^ 2 ≤ R.getD j 0 ^ 2 := by
    intro i j hij hj
    have hi : i < R.length := by omega
    have e : ∀ k (hk : k < R.length), R.getD k 0 = R[k] := fun k hk => by
      rw [List.getD_eq_getElem?_getD, List.getElem?_eq_getElem hk]; rfl
    rw [e i hi, e j hj]
    rcases Nat.lt_or_ge i j with h | h
    · have := (List.pairwise_iff_getElem.1 hR) i j hi hj h
      exact pow_le_pow_left₀ (h0 _ (List.getElem_mem hi)) (le_of_lt this) 2
    · have : i = j := by omega
      subst this; exact le_rfl
  have ex : ∃ r, r = R.length ∨ (r < R.length ∧ d < R.getD r 0 ^ 2) := ⟨R.length, Or.inl rfl⟩
  classical
  obtain ⟨r, hr, hmin⟩ : ∃ r, (r = R.length ∨ (r < R.length ∧ d < R.getD r 0 ^ 2)) ∧
      ∀ m < r, ¬ (m = R.length ∨ (m < R.length ∧ d < R.getD m 0 ^ 2)) :=
    ⟨Nat.find ex, Nat.find_spec ex, fun m hm => Nat.find_min ex hm⟩
  have hle : r ≤ R.length := by rcases hr with h | h <;> omega
  have hlow : ∀ m < r, R.getD m 0 ^ 2 ≤ d := by
    intro m hm
    have := hmin m hm
    push Not at this
    exact this.2 (by omega)
  refine ⟨r, hle, ⟨fun h => ?_, fun h => hlow _ (by omega)⟩, ?_⟩
  · rcases hr with h' | h'
    · omega
    · exact h'.2
  · rintro r' hr' ⟨h1, h2⟩
    rcases Nat.lt_trichotomy r' r with h | h | h
    · exact absurd (h1 (by omega)) (not_lt.2 (hlow r' h))
    · exact h
    · have hd := h2 (by omega)
      have hr2 : d < R.getD r 0 ^ 2 := by
        rcases hr with h' | h'
        · omega
        · exact h'.2
      have := mono r (r' - 1) (by omega) (by omega)
      exact absurd (lt_of_lt_of_le hr2 this) (not_lt.2 hd)

/-- C69: the regions of a pin cell partition it: every point of the cell lies in exactly one region,
    the one of its annulus, which has that annulus' material.  With both divisions the pin must be
    centred. -/
theorem C69_pin_partition (P : Pin K) (hx : 0 < P.pitch.x) (hy : 0 < P.pitch.y)
    (h0 : ∀ x ∈ P.radii, 0 ≤ x) (hR : P.radii.Pairwise (· < ·))
    (hc : P.div = 3 → P.center.x = 0 ∧ P.center.y = 0) (p : Pt K) (hp : InPin P p) :
    ∃! c : Nat, ∃ g, P.regions[c]? = some g ∧ g.contains p = some true := by
  obtain ⟨r, hr, hrad, hru⟩ := annulus_unique P.radii h0 hR (axis2 P p)
  obtain ⟨a, ha, hsec, hau⟩ := sector_unique P hx hy hc p
  have get : ∀ r' a', r' < P.radii.length + 1 → a' < max 1 (2 * P.partitions.length) →
      P.regions[a' + r' * max 1 (2 * P.partitions.length)]? = some (P.region r' a') := by
    intro r' a' hr' ha'
    unfold Pin.regions
    rw [getElem?_blocks _ _ (fun b => by simp) _ _ _ ha' hr', List.getElem?_map,
      List.getElem?_range ha', Option.map_some]
  refine ⟨a + r * max 1 (2 * P.partitions.length), ⟨_, get r a (by omega) ha, ?_⟩, ?_⟩
  · exact (pin_region_holds P r a hr p).2 ⟨hrad.1, hrad.2, fun _ => hp, hsec⟩
  · rintro c ⟨g, hg, hin⟩
    have hm : 0 < max 1 (2 * P.partitions.length) := by omega
    have hlen : P.regions.length = (P.radii.length + 1) * max 1 (2 * P.partitions.length) :=
      length_blocks _ _ (fun b => by simp) _
    have hcl : c < (P.radii.length + 1) * max 1 (2 * P.partitions.length) := by
      rw [← hlen]
      by_contra hcc
      rw [List.getElem?_eq_none (not_lt.1 hcc)] at hg
      cases hg
    have h1 : c % max 1 (2 * P.partitions.length) < max 1 (2 * P.partitions.length) := Nat.mod_lt _ hm
    have h2 : c / max 1 (2 * P.partitions.length) < P.radii.length + 1 :=
      (Nat.div_lt_iff_lt_mul hm).2 hcl
    have e : c = c % max 1 (2 * P.partitions.length) +
        c / max 1 (2 * P.partitions.length) * max 1 (2 * P.partitions.length) := by
      have := Nat.mod_add_div c (max 1 (2 * P.partitions.length))
      rw [Nat.mul_comm (max 1 (2 * P.partitions.length)) (c / _)] at this
      exact this.symm
    have hget := get _ _ h2 h1
    rw [← e, hg, Option.some.injEq] at hget
    rw [hget] at hin
    obtain ⟨p1, p2, p3, p4⟩ := (pin_region_holds P _ _ (by omega) p).1 hin
    rw [e, hru _ (by omega) ⟨p1, p2⟩, hau _ h1 p4]

/-- C69: the region found has the material given for the annulus. -/
theorem C69_pin_material (P : Pin K) (r a : Nat) (hr : r < P.radii.length + 1)
    (ha : a < max 1 (2 * P.partitions.length)) :
    (P.regions[a + r * max 1 (2 * P.partitions.length)]?).map Region.mat = some (P.mats.getD r 0) := by
  have get : P.regions[a + r * max 1 (2 * P.partitions.length)]? = some (P.region r a) := by
    unfold Pin.regions
    rw [getElem?_blocks _ _ (fun b => by simp) _ _ _ ha hr, List.getElem?_map,
      List.getElem?_range ha, Option.map_some]
  rw [get, Option.map_some]
  congr 1
  unfold Pin.region
  dsimp only
  rw [(sector_node _ _ _).2]
  split_ifs <;> simp only [mat_append, (bounds_node _ _).2]

/-- The claim for pins off centre. -/
def C69Claim : Prop := ∀ (P : Pin ℚ), 0 < P.pitch.x → 0 < P.pitch.y → (∀ x ∈ P.radii, 0 ≤ x) →
  P.radii.Pairwise (· < ·) → ∀ p, InPin P p →
    ∃! c : Nat, ∃ g, P.regions[c]? = some g ∧ g.contains p = some true

/-- A pin offset by 1/2 in x, with both kinds of divisions. -/
def exOffPin : Pin ℚ := ⟨⟨2, 2, 0⟩, ⟨1 / 2, 0, 0⟩, [], [0], 3⟩

/-- C69: it fails: the diagonal planes do not follow the pin, and regions overlap. -/
theorem C69_offset_overlap : ¬ C69Claim := by
  intro h
  obtain ⟨c, _, hu⟩ := h exOffPin (by decide +kernel) (by decide +kernel) (by decide +kernel)
    (by decide +kernel) ⟨1 / 2, 1, 0⟩ (by unfold InPin; decide +kernel)
  have e1 := hu 1 ⟨_, rfl, by decide +kernel⟩
  have e2 := hu 3 ⟨_, rfl, by decide +kernel⟩
  omega

/-- The claim that the division planes of an offset pin pass through its axis. -/
def C69CentreClaim : Prop := ∀ (P : Pin ℚ) (z : ℚ), P.div = 1 → ∀ s ∈ P.partitions,
  s.1.f ⟨P.center.x + P.pitch.x / 2, P.center.y + P.pitch.y / 2, z⟩ = 0

/-- C69: the horizontal and vertical planes of an offset pin are on the opposite side of the cell
    centre from the pin. -/
theorem C69_planes_misplaced : ¬ C69CentreClaim := by
  intro h
  have := h ⟨⟨2, 2, 0⟩, ⟨1 / 2, 0, 0⟩, [], [0], 1⟩ 0 rfl (planeX (1 / 2 * 2 - 1 / 2), false) (by
    simp [Pin.partitions])
  exact absurd this (by decide +kernel)

/-- A divided two-annulus pin cell: 24 regions; the material of the region found at three points. -/
example : (⟨⟨2, 2, 0⟩, ⟨0, 0, 0⟩, [1 / 4, 1 / 2], [3, 4, 5], 3⟩ : Pin ℚ).regions.length = 24 ∧
    find (⟨⟨2, 2, 0⟩, ⟨0, 0, 0⟩, [1 / 4, 1 / 2], [3, 4, 5], 3⟩ : Pin ℚ).regions ⟨1, 1, 0⟩ = some 0 ∧
    find (⟨⟨2, 2, 0⟩, ⟨0, 0, 0⟩, [1 / 4, 1 / 2], [3, 4, 5], 3⟩ : Pin ℚ).regions ⟨1 / 2, 1, 0⟩ = some 19 := by
  decide +kernel

/-! ## C71: translated regions and assemblies -/

/-- C71: a translated region contains a point exactly when the region contains the point moved
    back, and keeps its material. -/
theorem C71_contains (g g' : Region K) (o : Pt K) (h : translated g o = some g') (p : Pt K) :
    g'.contains p = g.contains (p.sub o) ∧ g'.mat = g.mat := by
  unfold translated at h
  rw [Option.map_eq_some_iff] at h
  obtain ⟨n, hn, rfl⟩ := h
  refine ⟨?_, rfl⟩
  rw [C58_contains_partial g n hn, C58_contains_partial _ (.trans n o) rfl, Node.contains]

/-- C71: the translated region's bounding box is moved the wrong way: its box test answers for the ray
    moved by `+ origin` instead of `- origin`. -/
theorem C71_box (g g' : Region K) (o : Pt K) (h : translated g o = some g') (r : Ray K) (len : K) :
    g'.hitsBox r len = g.hitsBox ⟨r.o.add o, r.d⟩ len := by
  unfold translated at h
  rw [Option.map_eq_some_iff] at h
  obtain ⟨n, hn, rfl⟩ := h
  have hz : (Region.append ⟨none, g.lo.sub o, g.hi.sub o, g.mat⟩ (.trans n o) 1).haveZ = g.haveZ := by
    rw [Bool.eq_iff_iff]
    simp only [Region.haveZ, Region.haveBound, Bool.and_eq_true, decide_eq_true_eq]
    simp only [Region.append, Pt.sub, dist2, sub_sub_sub_cancel_right, sub_lt_sub_iff_right]
  have hs : ∀ a b c d e : K, slab (a - c) (b - c) d e = slab a b (d + c) e := by
    intro a b c d e
    unfold slab
    rw [show a - c - d = a - (d + c) by ring, show b - c - d = b - (d + c) by ring]
  unfold Region.hitsBox
  rw [hz]
  simp only [Region.append, Pt.sub, Pt.add, hs]
  rfl

/-- The claim: the box test of a translated region answers for the ray moved back. -/
def C71Claim : Prop := ∀ (g g' : Region ℚ) (o : Pt ℚ), translated g o = some g' → ∀ r len,
  g'.hitsBox r len = g.hitsBox ⟨r.o.sub o, r.d⟩ len

/-- C71: it fails for the second pin of a row: a track through it misses its box. -/
theorem C71_box_wrong : ¬ C71Claim := by
  intro h
  have := h (exPin.region 1 0) _ ⟨2, 0, 0⟩ rfl ⟨⟨2, 1, 0⟩, ⟨1, 1 / 10, 0⟩⟩ 2
  exact absurd this (by decide +kernel)

/-- A row of three equal pin cells. -/
def exRow : List (Region ℚ) := (assembly [exPin] 3 1 fun _ => 0).filterMap id

/-- C71: a track along the centre line of a row of three pin cells (length 6) gets segments for the
    first two only, although the third pin's regions (numbers 4 and 5) contain points of it. -/
theorem C71_row_segments :
    (segmentize (fun x : ℚ => if x = 1 then 1 else if x = 4 then 2 else 1) isort xdist
      (fun o l => l.insertionSort fun a b => dist2 o a.1 ≤ dist2 o b.1) exRow ⟨0, 1, 0⟩ ⟨6, 1, 0⟩).map
      (fun l => (l.map (·.2.region), (l.map (·.2.length)).sum)) = some ([1, 0, 1, 3, 2, 3], 4) ∧
    (exRow[4]?).bind (·.contains ⟨5, 1, 0⟩) = some true ∧
    (exRow[5]?).bind (·.contains ⟨9 / 2, 1, 0⟩) = some true := by
  decide +kernel

/-- C71: the regions of an assembly: those of pin cell `(i, j)` moved by `i` and `j` pitches, columns of
    pins one after another (all pin cells having `m` regions). -/
theorem C71_assembly (pins : List (Pin K)) (p0 : Pin K) (h0 : pins[0]? = some p0) (nx ny m : Nat)
    (map : Nat → Nat) (hm : ∀ i < nx, ∀ j < ny, ∃ p, pins[map (i + j * nx)]? = some p ∧ p.regions.length = m)
    (i j k : Nat) (hi : i < nx) (hj : j < ny) (hk : k < m) (p : Pin K)
    (hp : pins[map (i + j * nx)]? = some p) :
    (assembly pins nx ny map)[k + (j + i * ny) * m]? =
      (p.regions[k]?).map fun g => translated g ⟨p0.pitch.x * i, p0.pitch.y * j, 0⟩ := by
  -- blocks of equal length, restricted to valid indices
  have blk : ∀ {α : Type} (n : Nat) (f : Nat → List α) (M : Nat), (∀ b < M, (f b).length = n) →
      ((List.range M).flatMap f).length = M * n ∧
      ∀ a b, a < n → b < M → ((List.range M).flatMap f)[a + b * n]? = (f b)[a]? := by
    intro α n f M hf
    induction M with
    | zero => simp
    | succ M ih =>
      obtain ⟨l, g⟩ := ih fun b hb => hf b (by omega)
      rw [List.range_succ, List.flatMap_append]
      refine ⟨by rw [List.length_append, l]; simp [hf M (by omega)]; ring, fun a b ha hb => ?_⟩
      rw [List.getElem?_append, l]
      by_cases hbm : b < M
      · rw [if_pos, g a b ha hbm]
        calc a + b * n < n + b * n := by omega
          _ = (b + 1) * n := by ring
          _ ≤ M * n := Nat.mul_le_mul_right _ hbm
      · have : b = M := by omega
        subst this
        rw [if_neg (by omega)]
        simp
  have inner : ∀ i < nx, ∀ j < ny, (assemblyPin pins nx map i j).length = m := by
    intro i hi j hj
    obtain ⟨p, hp, hl⟩ := hm i hi j hj
    rw [assemblyPin, hp, h0]
    simp [hl]
  unfold assembly
  have hlt : k + j * m < ny * m := by
    calc k + j * m < m + j * m := by omega
      _ = (j + 1) * m := by ring
      _ ≤ ny * m := Nat.mul_le_mul_right _ hj
  rw [show k + (j + i * ny) * m = (k + j * m) + i * (ny * m) by ring,
    (blk (ny * m) _ nx fun b hb => (blk m _ ny (inner b hb)).1).2 _ i hlt hi,
    (blk m _ ny (inner i hi)).2 k j hk hj, assemblyPin, hp, h0, List.getElem?_map]

end Detran.Geom
