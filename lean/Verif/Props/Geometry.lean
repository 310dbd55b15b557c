import Verif.Lemmas.Geometry
import Mathlib.Data.Rat.Defs
import Mathlib.Algebra.Order.Ring.Rat
import Mathlib.Data.Set.Basic
import Mathlib.Data.List.Sort

/-!
# C38, C39, C58, C68: solid geometry, ray tracing, bounding boxes, segmentation
-/

namespace Detran.Geom

variable {K : Type} [Field K] [LinearOrder K] [IsStrictOrderedRing K]

/-! ## C38 -/

/-- Specification: the set of points a tree denotes. -/
def Node.denote : Node K → Set (Pt K)
  | .prim s true => {p | ¬ s.f p < 0}
  | .prim s false => {p | s.f p < 0}
  | .union L R => L.denote ∪ R.denote
  | .inter L R => L.denote ∩ R.denote
  | .diff L R => L.denote \ R.denote
  | .trans n t => (fun p => p.add t) '' n.denote

/-- C38: `contains` is membership in the denoted set, for every tree. -/
theorem C38_contains (n : Node K) (p : Pt K) : n.contains p = true ↔ p ∈ n.denote := by
  induction n generalizing p with
  | prim s b => cases b <;> simp [Node.contains, Node.denote, Quad.sense]
  | union L R hL hR => simp [Node.contains, Node.denote, hL, hR]
  | inter L R hL hR => simp [Node.contains, Node.denote, hL, hR]
  | diff L R hL hR =>
    rw [Node.contains, Node.denote, Bool.and_eq_true, Bool.not_eq_true', Set.mem_diff, ← hL, ← hR,
      Bool.not_eq_true]
  | trans n t h =>
    rw [Node.contains, Node.denote, h, Set.mem_image]
    constructor
    · exact fun hp => ⟨_, hp, sub_add' p t⟩
    · rintro ⟨q, hq, rfl⟩
      have : (q.add t).sub t = q := by simp only [Pt.add, Pt.sub]; ext <;> simp
      rw [this]; exact hq

/-- C38: the surface factory: the negative side of each surface is the half space, cylinder or ball
    one expects. -/
theorem C38_factory (a b c x y z R : K) (p : Pt K) :
    ((planeX x).sense p = false ↔ p.x < x) ∧ ((planeY y).sense p = false ↔ p.y < y) ∧
    ((planeZ z).sense p = false ↔ p.z < z) ∧
    ((plane a b c x).sense p = false ↔ a * p.x + b * p.y + c * p.z < x) ∧
    ((cylX y z R).sense p = false ↔ (p.y - y) ^ 2 + (p.z - z) ^ 2 < R ^ 2) ∧
    ((cylY x z R).sense p = false ↔ (p.x - x) ^ 2 + (p.z - z) ^ 2 < R ^ 2) ∧
    ((cylZ x y R).sense p = false ↔ (p.x - x) ^ 2 + (p.y - y) ^ 2 < R ^ 2) ∧
    ((sphere x y z R).sense p = false ↔
      (p.x - x) ^ 2 + (p.y - y) ^ 2 + (p.z - z) ^ 2 < R ^ 2) := by
  simp only [sense_false]
  simp only [Quad.f, planeX, planeY, planeZ, plane, cylX,
    cylY, cylZ, sphere]
  refine ⟨?_, ?_, ?_, ?_, ?_, ?_, ?_, ?_⟩ <;> constructor <;> intro h <;> nlinarith

example : (Node.diff (.prim (sphere (0 : ℚ) 0 0 2) false) (.trans (.prim (sphere 0 0 0 1) false)
    ⟨1, 0, 0⟩)).contains ⟨-1, 0, 0⟩ = true := by decide +kernel

example : (Node.diff (.prim (sphere (0 : ℚ) 0 0 2) false) (.trans (.prim (sphere 0 0 0 1) false)
    ⟨1, 0, 0⟩)).contains ⟨1, 0, 0⟩ = false := by decide +kernel

/-! ## C39 -/

/-- C39: hits are in range and strictly ascending along the ray. -/
theorem C39_order (sq : K → K) (q : Quad K) (r : Ray K) (m : K) (hs : SqAt sq (disc q r)) :
    (q.hits sq r m).Pairwise (· < ·) ∧ ∀ t ∈ q.hits sq r m, 0 < t ∧ (m < 0 ∨ t ≤ m) :=
  ⟨hits_ascending sq q r m hs, fun _ h => (mem_hits.1 h).2⟩

/-- C39: every hit lies on the surface, unless the quadratic coefficient along the ray is nonzero but
    below the threshold. -/
theorem C39_on_surface (sq : K → K) (q : Quad K) (r : Ray K) (m t : K) (hs : SqAt sq (disc q r))
    (hn : ¬ |(q.abc r).1| < tiny ∨ (q.abc r).1 = 0) (ht : t ∈ q.hits sq r m) :
    q.f (r.at t) = 0 := by
  by_cases ha : |(q.abc r).1| < tiny
  · have h0 := hn.resolve_left (not_not.2 ha)
    have h1 := ((mem_hits_lin ha).1 ht).1.2
    have h2 := abc_spec q r t
    rw [h0] at h2
    have : 2 * q.f (r.at t) = 0 := by rw [h2]; linear_combination h1
    exact (mul_eq_zero.1 this).resolve_left two_ne_zero
  · by_cases hd : 0 < disc q r
    · exact ((mem_hits_quad ha hd hs).1 ht).1
    · exact absurd ht (mem_hits_none ha hd)

/-- C39: with a quadratic coefficient below the threshold, the hit misses the surface by at most the
    threshold times half the squared distance. -/
theorem C39_on_surface_near (sq : K → K) (q : Quad K) (r : Ray K) (m t : K)
    (ha : |(q.abc r).1| < tiny) (ht : t ∈ q.hits sq r m) :
    2 * |q.f (r.at t)| < (1 / 10 ^ 13) * t ^ 2 := by
  have h1 := ((mem_hits_lin ha).1 ht).1.2
  have hpos := ((mem_hits_lin ha).1 ht).2.1
  have h2 := abc_spec q r t
  have h3 : 2 * q.f (r.at t) = (q.abc r).1 * t ^ 2 := by rw [h2]; linear_combination h1
  have h4 : 2 * |q.f (r.at t)| = |(q.abc r).1| * t ^ 2 := by
    rw [← abs_two, ← abs_mul, h3, abs_mul, abs_of_nonneg (sq_nonneg t)]
  rw [h4]
  exact mul_lt_mul_of_pos_right ha (by positivity)

/-- C39: every transversal crossing within range is returned (`2at + b` is twice the derivative of the
    surface function along the ray). -/
theorem C39_complete (sq : K → K) (q : Quad K) (r : Ray K) (m t : K) (hs : SqAt sq (disc q r))
    (hn : Nondeg q r) (h0 : 0 < t) (hm : m < 0 ∨ t ≤ m) (hf : q.f (r.at t) = 0)
    (htr : 2 * (q.abc r).1 * t + (q.abc r).2.1 ≠ 0) : t ∈ q.hits sq r m := by
  rcases hn with hn | ⟨ha, hb⟩
  · have h1 := square_spec q r t
    rw [hf, mul_zero] at h1
    have hd : 0 < disc q r := by
      have := mul_self_pos.2 htr
      linarith
    exact (mem_hits_quad hn hd hs).2 ⟨hf, h0, hm⟩
  · rw [ha, mul_zero, zero_mul, zero_add] at htr
    have h2 := abc_spec q r t
    rw [hf, ha] at h2
    refine (mem_hits_lin (by rw [ha, abs_zero]; exact tiny_pos)).2 ⟨⟨hb.resolve_left htr, ?_⟩, h0, hm⟩
    linear_combination -h2

/-- C39: tangent points are never returned. -/
theorem C39_tangent_missed (sq : K → K) (q : Quad K) (r : Ray K) (m : K)
    (ha : 1 / 10 ^ 13 ≤ |(q.abc r).1|)
    (ht : ∃ t, q.f (r.at t) = 0 ∧ 2 * (q.abc r).1 * t + (q.abc r).2.1 = 0) :
    q.hits sq r m = [] := by
  obtain ⟨t, h1, h2⟩ := ht
  have h3 := square_spec q r t
  rw [h1, h2] at h3
  rw [List.eq_nil_iff_forall_not_mem]
  intro x
  refine mem_hits_none (not_lt.2 ha) ?_
  have : disc q r = 0 := by linear_combination -h3
  rw [this]; exact lt_irrefl _

/-- C39: between two points on strictly opposite sides of the surface there is a hit. -/
theorem C39_crossing (sq : K → K) (q : Quad K) (r : Ray K) (m t1 t2 : K) (hn : Nondeg q r)
    (hs : SqAt sq (disc q r)) (h0 : 0 ≤ t1) (h12 : t1 < t2) (hm : m < 0 ∨ t2 ≤ m)
    (hf : q.f (r.at t1) * q.f (r.at t2) < 0) : ∃ t ∈ q.hits sq r m, t1 < t ∧ t < t2 :=
  crossing hn hs h0 h12 hm hf

/-- C39 for trees: the points returned are the hits of the leaf surfaces, none dropped or added
    (`Node.ts` lists the leaf hits), and come in order of distance from the ray's origin. -/
theorem C39_tree_order (sq : K → K) (sort : Pt K → List (Pt K) → List (Pt K))
    (hs : SortsByDist sort) (n : Node K) (r : Ray K) (m : K)
    (hA : n.All (fun q r => SqAt sq (disc q r)) r) :
    (n.intersections sq sort r m).Perm ((n.ts sq r m).map r.at) ∧
    (n.intersections sq sort r m).Pairwise (fun p q => dist2 r.o p ≤ dist2 r.o q) ∧
    ∀ p ∈ n.intersections sq sort r m, ∃ t, 0 < t ∧ (m < 0 ∨ t ≤ m) ∧ p = r.at t := by
  refine ⟨inter_perm hs n r m, inter_sorted hs n r m hA, fun p hp => ?_⟩
  obtain ⟨t, ht, rfl⟩ := List.mem_map.1 ((inter_perm hs n r m).mem_iff.1 hp)
  obtain ⟨h1, h2⟩ := ts_range sq n r m t ht
  exact ⟨t, h1, h2, rfl⟩

/-- C39 for trees: if the tree contains one of two points of the ray but not the other, and neither is
    on a leaf surface, an intersection lies strictly between them. -/
theorem C39_tree_crossing (sq : K → K) (sort : Pt K → List (Pt K) → List (Pt K))
    (hs : SortsByDist sort) (n : Node K) (r : Ray K) (m t1 t2 : K)
    (hA : n.All (fun q r => Nondeg q r ∧ SqAt sq (disc q r)) r)
    (h0 : 0 ≤ t1) (h12 : t1 < t2) (hm : m < 0 ∨ t2 ≤ m)
    (hz : n.All (fun q r => q.f (r.at t1) ≠ 0 ∧ q.f (r.at t2) ≠ 0) r)
    (hc : n.contains (r.at t1) ≠ n.contains (r.at t2)) :
    ∃ t, t1 < t ∧ t < t2 ∧ r.at t ∈ n.intersections sq sort r m := by
  obtain ⟨t, ht, h1, h2⟩ := tree_crossing sq n r m t1 t2 hA h0 h12 hm hz hc
  exact ⟨t, h1, h2, (inter_perm hs n r m).mem_iff.2 (List.mem_map_of_mem ht)⟩

/-- A square root for the numbers met in the examples. -/
def qsqrt (x : ℚ) : ℚ := if x = 64 then 8 else if x = 4 then 2 else if x = 16 then 4 else 0

/-- A sort by distance. -/
def isort (o : Pt ℚ) (l : List (Pt ℚ)) : List (Pt ℚ) :=
  l.insertionSort fun p q => dist2 o p ≤ dist2 o q

theorem isort_sorts : SortsByDist isort := by
  intro o l
  haveI : Std.Total fun p q : Pt ℚ => dist2 o p ≤ dist2 o q := ⟨fun a b => le_total _ _⟩
  haveI : IsTrans (Pt ℚ) fun p q => dist2 o p ≤ dist2 o q := ⟨fun a b c h1 h2 => le_trans h1 h2⟩
  exact ⟨List.perm_insertionSort _ _, List.pairwise_insertionSort _ _⟩

/-- A ray through a ball of radius 2: it enters at 1 and leaves at 5. -/
def exRay : Ray ℚ := ⟨⟨-3, 0, 0⟩, ⟨1, 0, 0⟩⟩

example : (sphere (0 : ℚ) 0 0 2).hits qsqrt exRay (-1) = [1, 5] := by decide +kernel
example : (sphere (0 : ℚ) 0 0 2).hits qsqrt exRay 3 = [1] := by decide +kernel
example : ¬ |((sphere (0 : ℚ) 0 0 2).abc exRay).1| < tiny ∧ disc (sphere (0 : ℚ) 0 0 2) exRay = 64 ∧
    qsqrt 64 * qsqrt 64 = 64 := by decide +kernel

example : (Node.diff (.prim (sphere (0 : ℚ) 0 0 2) false) (.trans (.prim (sphere 0 0 0 1) false)
    ⟨1, 0, 0⟩)).intersections qsqrt isort exRay (-1) =
      [⟨-2, 0, 0⟩, ⟨0, 0, 0⟩, ⟨2, 0, 0⟩, ⟨2, 0, 0⟩] := by decide +kernel

/-- A ray tangent to the ball finds nothing. -/
example : (sphere (0 : ℚ) 0 0 2).hits qsqrt ⟨⟨-3, 2, 0⟩, ⟨1, 0, 0⟩⟩ (-1) = [] := by decide +kernel

/-! ## C58 -/

/-- C58: a region contains exactly the points of its node; the bounding box is never consulted. -/
theorem C58_contains_partial (g : Region K) (n : Node K) (hn : g.node = some n) (p : Pt K) :
    g.contains p = some (n.contains p) := by
  unfold Region.contains
  rw [hn, Option.map_some]
  by_cases h : g.haveBound = true
  · by_cases h' : (p.gt g.lo && p.lt g.hi) = true
    · rw [if_pos h, if_pos h']
    · rw [if_pos h, if_neg h']
  · rw [if_neg h]

/-- The documented claim: a point outside the bounding box is not in the region. -/
def C58Claim : Prop := ∀ (g : Region ℚ) (p : Pt ℚ), g.haveBound = true →
  ¬ (g.lo.x ≤ p.x ∧ p.x ≤ g.hi.x ∧ g.lo.y ≤ p.y ∧ p.y ≤ g.hi.y) → g.contains p ≠ some true

/-- C58: it fails; a half space with a unit box contains a far-away point. -/
theorem C58_box_ignored : ¬ C58Claim := by
  intro h
  exact h ⟨some (.prim (planeX 0) true), ⟨0, 0, 0⟩, ⟨1, 1, 1⟩, 0⟩ ⟨9, 0, 0⟩
    (by decide +kernel) (by decide +kernel) (by decide +kernel)

/-- C58: if the node lies inside the box the claim holds. -/
theorem C58_contains_in_box (g : Region K) (n : Node K) (hn : g.node = some n)
    (hb : ∀ p, n.contains p = true → g.lo.x ≤ p.x ∧ p.x ≤ g.hi.x ∧ g.lo.y ≤ p.y ∧ p.y ≤ g.hi.y)
    (p : Pt K) : g.contains p = some true ↔ n.contains p = true ∧
      g.lo.x ≤ p.x ∧ p.x ≤ g.hi.x ∧ g.lo.y ≤ p.y ∧ p.y ≤ g.hi.y := by
  rw [C58_contains_partial g n hn, Option.some.injEq]
  exact ⟨fun h => ⟨h, hb p h⟩, fun h => h.1⟩

/-! ### The ray-box test -/

/-- Not NaN. -/
def Ext.ok : Ext K → Prop
  | .nan => False
  | _ => True

/-- `a ≤ b` for non-NaN. -/
def Ext.le (a b : Ext K) : Prop := a.gt b = false

omit [Field K] [IsStrictOrderedRing K] in
theorem Ext.le_trans {a b c : Ext K} (hb : b.ok) (h1 : a.le b) (h2 : b.le c) : a.le c := by
  cases a <;> cases b <;> cases c <;> simp_all [Ext.le, Ext.gt, Ext.ok]
  exact _root_.le_trans h1 h2

omit [Field K] [IsStrictOrderedRing K] in
theorem Ext.le_of_gt {a b : Ext K} (h1 : a.gt b = true) : b.le a := by
  cases a <;> cases b <;> simp_all [Ext.le, Ext.gt]
  exact le_of_lt h1

/-- Under the stated hypotheses the slab's bounds are numbers or infinities, ordered, and describe the
    parameters at which the ray is between the two planes. -/
theorem slab_spec {lo hi o d : K} (h : lo ≤ hi) (hd : d ≠ 0 ∨ (o ≠ lo ∧ o ≠ hi)) :
    (slab lo hi o d).1.ok ∧ (slab lo hi o d).2.ok ∧ (slab lo hi o d).1.le (slab lo hi o d).2 ∧
    ∀ t, (lo ≤ o + t * d ∧ o + t * d ≤ hi) ↔
      ((slab lo hi o d).1.le (.fin t) ∧ (Ext.fin t).le (slab lo hi o d).2) := by
  by_cases h0 : d = 0
  · subst h0
    obtain ⟨h1, h2⟩ := hd.resolve_left (fun h => h rfl)
    simp only [slab, mulInv, div_zero, lt_irrefl, if_false, if_true, mul_zero, add_zero]
    rcases lt_or_gt_of_ne h1 with h3 | h3
    · have h4 : (0 : K) < lo - o := by linarith
      have h5 : (0 : K) < hi - o := by linarith
      simp only [h4, h5, if_true, Ext.ok, Ext.le, Ext.gt]
      refine ⟨trivial, trivial, trivial, fun t => ⟨fun h => absurd h.1 (not_le.2 h3), ?_⟩⟩
      simp
    · have h4 : ¬ (0 : K) < lo - o := by linarith
      have h4' : lo - o < (0 : K) := by linarith
      rcases lt_or_gt_of_ne h2 with h5 | h5
      · have h6 : (0 : K) < hi - o := by linarith
        simp only [h4, h4', h6, if_true, if_false, Ext.ok, Ext.le, Ext.gt]
        simp [le_of_lt h3, le_of_lt h5]
      · have h6 : ¬ (0 : K) < hi - o := by linarith
        have h6' : hi - o < (0 : K) := by linarith
        simp only [h4, h4', h6, h6', if_true, if_false, Ext.ok, Ext.le, Ext.gt]
        refine ⟨trivial, trivial, trivial, fun t => ⟨fun h => absurd h.2 (not_le.2 h5), ?_⟩⟩
        simp
  · simp only [slab, mulInv, if_neg h0]
    by_cases hs : 1 / d < 0
    · have hd' : d < 0 := one_div_neg.1 hs
      simp only [if_pos hs, Ext.ok, Ext.le, Ext.gt, decide_eq_false_iff_not, not_lt, true_and]
      refine ⟨mul_le_mul_of_nonpos_right (by linarith) (le_of_lt hs), fun t => ?_⟩
      rw [mul_one_div, mul_one_div, div_le_iff_of_neg hd', le_div_iff_of_neg hd']
      constructor <;> rintro ⟨h1, h2⟩ <;> constructor <;> linarith
    · have hd' : 0 < d := by
        rcases lt_or_gt_of_ne h0 with h1 | h1
        · exact absurd (one_div_neg.2 h1) hs
        · exact h1
      simp only [if_neg hs, Ext.ok, Ext.le, Ext.gt, decide_eq_false_iff_not, not_lt, true_and]
      refine ⟨mul_le_mul_of_nonneg_right (by linarith) (not_lt.1 hs), fun t => ?_⟩
      rw [mul_one_div, mul_one_div, div_le_iff₀ hd', le_div_iff₀ hd']
      constructor <;> rintro ⟨h1, h2⟩ <;> constructor <;> linarith

/-- Two intervals: the merged interval of the box test. -/
theorem merge_spec {a0 a1 b0 b1 : Ext K} (ha0 : a0.ok) (ha1 : a1.ok) (hb0 : b0.ok) (hb1 : b1.ok)
    (ha : a0.le a1) (hb : b0.le b1) (h1 : a0.gt b1 = false) (h2 : b0.gt a1 = false) :
    (if b0.gt a0 then b0 else a0).ok ∧ (if a1.gt b1 then b1 else a1).ok ∧
    (if b0.gt a0 then b0 else a0).le (if a1.gt b1 then b1 else a1) ∧
    ∀ t : K, ((if b0.gt a0 then b0 else a0).le (.fin t) ∧ (Ext.fin t).le (if a1.gt b1 then b1 else a1)) ↔
      ((a0.le (.fin t) ∧ (Ext.fin t).le a1) ∧ (b0.le (.fin t) ∧ (Ext.fin t).le b1)) := by
  by_cases e1 : b0.gt a0 = true <;> by_cases e2 : a1.gt b1 = true <;>
    simp only [if_pos, if_neg, e1, e2, Bool.false_eq_true, if_false, if_true]
  · refine ⟨hb0, hb1, hb, fun t => ⟨fun h => ⟨⟨Ext.le_trans hb0 (Ext.le_of_gt e1) h.1,
      Ext.le_trans hb1 h.2 (Ext.le_of_gt e2)⟩, h⟩, fun h => h.2⟩⟩
  · refine ⟨hb0, ha1, h2, fun t => ⟨fun h => ⟨⟨Ext.le_trans hb0 (Ext.le_of_gt e1) h.1, h.2⟩,
      h.1, Ext.le_trans ha1 h.2 (by simpa [Ext.le] using e2)⟩, fun h => ⟨h.2.1, h.1.2⟩⟩⟩
  · refine ⟨ha0, hb1, h1, fun t => ⟨fun h => ⟨⟨h.1, Ext.le_trans hb1 h.2 (Ext.le_of_gt e2)⟩,
      Ext.le_trans ha0 (by simpa [Ext.le] using e1) h.1, h.2⟩, fun h => ⟨h.1.1, h.2.2⟩⟩⟩
  · refine ⟨ha0, ha1, ha, fun t => ⟨fun h => ⟨h, Ext.le_trans ha0 (by simpa [Ext.le] using e1) h.1,
      Ext.le_trans ha1 h.2 (by simpa [Ext.le] using e2)⟩, fun h => h.1⟩⟩

/-- Whether an interval meets the open parameter range. -/
theorem range_spec {a0 a1 : Ext K} (h0 : a0.ok) (h1 : a1.ok) (h : a0.le a1) {len : K} (hl : 0 < len) :
    ((Ext.fin len).gt a0 && a1.gt (.fin 0)) = true ↔
      ∃ t, 0 < t ∧ t < len ∧ a0.le (.fin t) ∧ (Ext.fin t).le a1 := by
  cases a0 <;> cases a1 <;> simp_all [Ext.ok, Ext.le, Ext.gt]
  · rename_i x y
    constructor
    · rintro ⟨h1, h2⟩
      by_cases hx : 0 < x
      · exact ⟨x, hx, h1, le_rfl, h⟩
      · have hm : 0 < min y len := lt_min h2 hl
        refine ⟨min y len / 2, by linarith, ?_, ?_, ?_⟩
        · have := min_le_right y len; linarith
        · linarith
        · have := min_le_left y len; linarith
    · rintro ⟨t, h1, h2, h3, h4⟩
      exact ⟨lt_of_le_of_lt h3 h2, lt_of_lt_of_le h1 h4⟩
  · rename_i x
    constructor
    · intro h1
      by_cases hx : 0 < x
      · exact ⟨x, hx, h1, le_rfl⟩
      · exact ⟨len / 2, by linarith, by linarith, by linarith⟩
    · rintro ⟨t, _, h2, h3⟩
      exact lt_of_le_of_lt h3 h2
  · rename_i y
    constructor
    · intro h2
      have hm : 0 < min y len := lt_min h2 hl
      refine ⟨min y len / 2, by linarith, ?_, ?_⟩
      · have := min_le_right y len; linarith
      · have := min_le_left y len; linarith
    · rintro ⟨t, h1, _, h4⟩
      exact lt_of_lt_of_le h1 h4
  · exact ⟨len / 2, by linarith, by linarith⟩

/-- C58: the ray-box test is exact: it succeeds exactly when some point of the ray strictly between
    its origin and the limit lies in the closed box.  The z bounds count only if the box has a z
    extent.  For a ray parallel to an axis plane, its origin must not lie on a face of that axis. -/
theorem C58_box_exact (g : Region K) (r : Ray K) (len : K) (hl : 0 < len)
    (hx : g.lo.x ≤ g.hi.x) (hy : g.lo.y ≤ g.hi.y)
    (dx : r.d.x ≠ 0 ∨ (r.o.x ≠ g.lo.x ∧ r.o.x ≠ g.hi.x))
    (dy : r.d.y ≠ 0 ∨ (r.o.y ≠ g.lo.y ∧ r.o.y ≠ g.hi.y))
    (dz : g.haveZ = true → r.d.z ≠ 0 ∨ (r.o.z ≠ g.lo.z ∧ r.o.z ≠ g.hi.z)) :
    g.hitsBox r len = true ↔ ∃ t, 0 < t ∧ t < len ∧
      (g.lo.x ≤ (r.at t).x ∧ (r.at t).x ≤ g.hi.x) ∧ (g.lo.y ≤ (r.at t).y ∧ (r.at t).y ≤ g.hi.y) ∧
      (g.haveZ = true → g.lo.z ≤ (r.at t).z ∧ (r.at t).z ≤ g.hi.z) := by
  have ex : ∀ t, (r.at t).x = r.o.x + t * r.d.x := fun t => by
    simp only [Ray.at, Pt.add, Pt.smul]; ring
  have ey : ∀ t, (r.at t).y = r.o.y + t * r.d.y := fun t => by
    simp only [Ray.at, Pt.add, Pt.smul]; ring
  have ez : ∀ t, (r.at t).z = r.o.z + t * r.d.z := fun t => by
    simp only [Ray.at, Pt.add, Pt.smul]; ring
  simp only [ex, ey, ez]
  obtain ⟨x0, x1, x2, x3⟩ := slab_spec hx dx
  obtain ⟨y0, y1, y2, y3⟩ := slab_spec hy dy
  unfold Region.hitsBox
  simp only [x3, y3]
  generalize slab g.lo.x g.hi.x r.o.x r.d.x = sx at *
  generalize slab g.lo.y g.hi.y r.o.y r.d.y = sy at *
  by_cases h1 : (sx.1.gt sy.2 || sy.1.gt sx.2) = true
  · rw [if_pos h1]
    refine ⟨fun h => absurd h (by simp), ?_⟩
    rintro ⟨t, _, _, ⟨p1, p2⟩, ⟨p3, p4⟩, _⟩
    rcases Bool.or_eq_true _ _ ▸ h1 with h | h
    · have := Ext.le_trans (b := .fin t) trivial p1 p4
      rw [Ext.le] at this
      rw [this] at h; cases h
    · have := Ext.le_trans (b := .fin t) trivial p3 p2
      rw [Ext.le] at this
      rw [this] at h; cases h
  · rw [if_neg h1]
    rw [Bool.or_eq_true, not_or, Bool.not_eq_true, Bool.not_eq_true] at h1
    obtain ⟨m0, m1, m2, m3⟩ := merge_spec x0 x1 y0 y1 x2 y2 h1.1 h1.2
    generalize (if sy.1.gt sx.1 = true then sy.1 else sx.1) = t0 at *
    generalize (if sx.2.gt sy.2 = true then sy.2 else sx.2) = t1 at *
    by_cases hz : g.haveZ = true
    · have hz' : g.lo.z ≤ g.hi.z := by
        unfold Region.haveZ at hz
        rw [Bool.and_eq_true, decide_eq_true_eq] at hz
        exact le_of_lt hz.2
      obtain ⟨z0, z1, z2, z3⟩ := slab_spec hz' (dz hz)
      simp only [hz, if_true, true_implies, z3]
      generalize slab g.lo.z g.hi.z r.o.z r.d.z = sz at *
      by_cases h2 : (t0.gt sz.2 || sz.1.gt t1) = true
      · rw [if_pos h2]
        refine ⟨fun h => absurd h (by simp), ?_⟩
        rintro ⟨t, _, _, hxx, hyy, p3, p4⟩
        obtain ⟨p1, p2⟩ := (m3 t).2 ⟨hxx, hyy⟩
        rcases Bool.or_eq_true _ _ ▸ h2 with h | h
        · have := Ext.le_trans (b := .fin t) trivial p1 p4
          rw [Ext.le] at this
          rw [this] at h; cases h
        · have := Ext.le_trans (b := .fin t) trivial p3 p2
          rw [Ext.le] at this
          rw [this] at h; cases h
      · rw [if_neg h2]
        rw [Bool.or_eq_true, not_or, Bool.not_eq_true, Bool.not_eq_true] at h2
        obtain ⟨n0, n1, n2, n3⟩ := merge_spec m0 m1 z0 z1 m2 z2 h2.1 h2.2
        rw [range_spec n0 n1 n2 hl]
        refine exists_congr fun t => and_congr_right fun _ => and_congr_right fun _ => ?_
        rw [n3, m3, and_assoc]
    · simp only [hz, Bool.false_eq_true, if_false, false_implies, and_true]
      rw [range_spec m0 m1 m2 hl]
      refine exists_congr fun t => and_congr_right fun _ => and_congr_right fun _ => ?_
      rw [m3]

example : (⟨none, ⟨0, 0, 0⟩, ⟨1, 1, 0⟩, 0⟩ : Region ℚ).hitsBox ⟨⟨-1, -1, 0⟩, ⟨1, 1, 0⟩⟩ 5 = true ∧
    (⟨none, ⟨0, 0, 0⟩, ⟨1, 1, 0⟩, 0⟩ : Region ℚ).hitsBox ⟨⟨-1, 1/2, 0⟩, ⟨1, 0, 0⟩⟩ 5 = true ∧
    (⟨none, ⟨0, 0, 0⟩, ⟨1, 1, 0⟩, 0⟩ : Region ℚ).hitsBox ⟨⟨-1, -1, 0⟩, ⟨1, 5, 0⟩⟩ 5 = false := by
  decide +kernel

/-- The claim without the restriction on axis-parallel rays. -/
def C58FaceClaim : Prop := ∀ (g : Region ℚ) (r : Ray ℚ) (t len : ℚ), 0 < t → t < len →
  g.lo.x ≤ (r.at t).x → (r.at t).x ≤ g.hi.x → g.lo.y ≤ (r.at t).y → (r.at t).y ≤ g.hi.y →
  g.haveZ = false → g.hitsBox r len = true

/-- C58: a ray running along the face `x = lo` of the box is rejected (not a number). -/
theorem C58_face_missed : ¬ C58FaceClaim := by
  intro h
  have := h ⟨none, ⟨0, 0, 0⟩, ⟨1, 1, 0⟩, 0⟩ ⟨⟨0, -1, 0⟩, ⟨0, 1, 0⟩⟩ (3 / 2) 5 (by decide +kernel)
    (by decide +kernel) (by decide +kernel) (by decide +kernel) (by decide +kernel)
    (by decide +kernel) (by decide +kernel)
  exact absurd this (by decide +kernel)

/-- C58: a region created without a bounding box is tested against the degenerate box at the origin,
    so a ray that does not pass through the z axis is rejected. -/
theorem C58_no_box_rejected (n : Option (Node K)) (mat : Nat) (r : Ray K) (len : K) (hl : 0 < len)
    (hdx : r.d.x ≠ 0) (hdy : r.d.y ≠ 0) (h : ∀ t, ¬ ((r.at t).x = 0 ∧ (r.at t).y = 0)) :
    (⟨n, ⟨0, 0, 0⟩, ⟨0, 0, 0⟩, mat⟩ : Region K).hitsBox r len = false := by
  rw [← Bool.not_eq_true, C58_box_exact _ r len hl le_rfl le_rfl (Or.inl hdx) (Or.inl hdy)
    (fun hz => by simp [Region.haveZ] at hz)]
  rintro ⟨t, _, _, ⟨h1, h2⟩, ⟨h3, h4⟩, _⟩
  exact h t ⟨le_antisymm h2 h1, le_antisymm h4 h3⟩

/-! ## C68 -/

/-- Two consecutive intersections as ray parameters. -/
theorem consecutive_params {sq : K → K} {sort : Pt K → List (Pt K) → List (Pt K)}
    (hs : SortsByDist sort) {n : Node K} {r : Ray K} {len : K}
    (hA : n.All (fun q r => SqAt sq (disc q r)) r) (hd : 0 < norm2 r.d) {p q : Pt K}
    (h : (p, q) ∈ (n.intersections sq sort r len).zip (n.intersections sq sort r len).tail) :
    ∃ t1 t2, p = r.at t1 ∧ q = r.at t2 ∧ 0 < t1 ∧ 0 < t2 ∧ (len < 0 ∨ t2 ≤ len) ∧
      ∀ t ∈ n.ts sq r len, t ≤ t1 ∨ t2 ≤ t := by
  obtain ⟨h1, h2, h3⟩ := C39_tree_order sq sort hs n r len hA
  have hp := (List.of_mem_zip h).1
  have hq := List.mem_of_mem_tail (List.of_mem_zip h).2
  obtain ⟨t1, a1, _, rfl⟩ := h3 p hp
  obtain ⟨t2, a2, b2, rfl⟩ := h3 q hq
  refine ⟨t1, t2, rfl, rfl, a1, a2, b2, fun t ht => ?_⟩
  have ht0 := (ts_range sq n r len t ht).1
  have hz : r.at t ∈ n.intersections sq sort r len := h1.mem_iff.2 (List.mem_map_of_mem ht)
  have key : ∀ a b : K, 0 < a → 0 < b → dist2 r.o (r.at a) ≤ dist2 r.o (r.at b) → a ≤ b := by
    intro a b ha hb hab
    rw [dist2_at, dist2_at] at hab
    have := le_of_mul_le_mul_right hab hd
    by_contra hc
    push Not at hc
    exact absurd this (not_le.2 (mul_lt_mul'' hc hc (le_of_lt hb) (le_of_lt hb)))
  rcases consecutive_gap (fun p => dist2 r.o p) _ h2 _ _ h _ hz with h | h
  · exact Or.inl (key t t1 ht0 a1 h)
  · exact Or.inr (key t2 t a2 ht0 h)

omit [LinearOrder K] [IsStrictOrderedRing K] in
theorem All_mono {P Q : Quad K → Ray K → Prop} (h : ∀ q r, P q r → Q q r) (n : Node K) :
    ∀ r, n.All P r → n.All Q r := by
  induction n with
  | prim s b => intro r hr; exact h s r hr
  | union L R hL hR | inter L R hL hR | diff L R hL hR => exact fun r hr => ⟨hL r hr.1, hR r hr.2⟩
  | trans n t ih => exact fun r hr => ih _ hr

omit [LinearOrder K] [IsStrictOrderedRing K] in
theorem All_and {P Q : Quad K → Ray K → Prop} (n : Node K) :
    ∀ r, n.All P r → n.All Q r → n.All (fun q r => P q r ∧ Q q r) r := by
  induction n with
  | prim s b => intro r h1 h2; exact ⟨h1, h2⟩
  | union L R hL hR | inter L R hL hR | diff L R hL hR =>
    exact fun r h1 h2 => ⟨hL r h1.1 h2.1, hR r h1.2 h2.2⟩
  | trans n t ih => exact fun r h1 h2 => ih _ h1 h2

omit [IsStrictOrderedRing K] in
theorem midpoint_at [NeZero (2 : K)] (r : Ray K) (t1 t2 : K) :
    Pt.smul (1 / 2) ((r.at t1).add (r.at t2)) = r.at ((t1 + t2) / 2) := by
  have h2 : (2 : K) ≠ 0 := NeZero.ne _
  simp only [Ray.at, Pt.add, Pt.smul]
  ext <;> simp <;> field_simp <;> ring

/-- C68: membership is constant along a piece between consecutive intersections, away from leaf
    surfaces. -/
theorem const_between {sq : K → K} {n : Node K} {r : Ray K} {len t1 t2 t t' : K}
    (hA : n.All (fun q r => Nondeg q r ∧ SqAt sq (disc q r)) r) (h1 : 0 < t1)
    (h2 : len < 0 ∨ t2 ≤ len) (hgap : ∀ t ∈ n.ts sq r len, t ≤ t1 ∨ t2 ≤ t)
    (ht : t1 < t ∧ t < t2) (ht' : t1 < t' ∧ t' < t2)
    (hz : n.All (fun q r => q.f (r.at t) ≠ 0) r) (hz' : n.All (fun q r => q.f (r.at t') ≠ 0) r) :
    n.contains (r.at t) = n.contains (r.at t') := by
  have key : ∀ a b, t1 < a → a < b → b < t2 → n.All (fun q r => q.f (r.at a) ≠ 0) r →
      n.All (fun q r => q.f (r.at b) ≠ 0) r → n.contains (r.at a) = n.contains (r.at b) := by
    intro a b ha hab hb za zb
    by_contra hc
    obtain ⟨x, hx, x1, x2⟩ := tree_crossing sq n r len a b hA (le_of_lt (lt_trans h1 ha)) hab
      (h2.imp_right fun h => le_of_lt (lt_of_lt_of_le hb h)) (All_and n r za zb) hc
    rcases hgap x hx with h | h
    · exact absurd (lt_trans ha x1) (not_lt.2 h)
    · exact absurd (lt_trans x2 hb) (not_lt.2 h)
  rcases lt_trichotomy t t' with h | h | h
  · exact key t t' ht.1 h ht'.2 hz hz'
  · rw [h]
  · exact (key t' t ht'.1 h ht.2 hz' hz).symm

/-- C68: every piece kept for a region runs between two intersections and lies in the region: all its
    interior points that are on no leaf surface are contained (provided the midpoint is on none). -/
theorem C68_pieces_inside (sq : K → K) (sort : Pt K → List (Pt K) → List (Pt K))
    (dist : Pt K → Pt K → K) (hs : SortsByDist sort) (n : Node K) (r : Ray K) (len : K)
    (hA : n.All (fun q r => Nondeg q r ∧ SqAt sq (disc q r)) r) (hd : 0 < norm2 r.d)
    (ps : List (Pt K × Pt K))
    (h : pieces dist n.contains (n.intersections sq sort r len) = some ps) (p q : Pt K)
    (hpq : (p, q) ∈ ps) :
    ¬ |dist p q| < 1 / 10 ^ 12 ∧ ∃ t1 t2, p = r.at t1 ∧ q = r.at t2 ∧ 0 < t1 ∧ (len < 0 ∨ t2 ≤ len) ∧
      (n.All (fun q r => q.f (r.at ((t1 + t2) / 2)) ≠ 0) r →
        ∀ t, t1 < t → t < t2 → n.All (fun q r => q.f (r.at t) ≠ 0) r → n.contains (r.at t) = true) := by
  have hA' := All_mono (fun q r h => h.2) n r hA
  have hne : n.intersections sq sort r len ≠ [] := by
    intro e; rw [e, pieces] at h; cases h
  rw [pieces_spec dist _ _ hne, Option.some.injEq] at h
  rw [← h, List.mem_filter, Bool.and_eq_true, Bool.not_eq_true', softZero,
    decide_eq_false_iff_not] at hpq
  obtain ⟨hz, hlen, hin⟩ := hpq
  obtain ⟨t1, t2, rfl, rfl, h1, h2, h3, hgap⟩ := consecutive_params hs hA' hd hz
  refine ⟨hlen, t1, t2, rfl, rfl, h1, h3, fun hm t ha hb hzt => ?_⟩
  rw [midpoint_at] at hin
  rw [← hin]
  exact const_between hA h1 h3 hgap ⟨ha, hb⟩ ⟨by linarith, by linarith⟩ hzt hm

/-- C68: conversely, a point of the region on the track lies in a kept piece (or in one too short to
    keep), if the ray is outside the region somewhere before and somewhere after it. -/
theorem C68_pieces_cover (sq : K → K) (sort : Pt K → List (Pt K) → List (Pt K))
    (dist : Pt K → Pt K → K) (hs : SortsByDist sort) (n : Node K) (r : Ray K) (len : K)
    (hA : n.All (fun q r => Nondeg q r ∧ SqAt sq (disc q r)) r) (hd : 0 < norm2 r.d)
    (t0 t t3 : K) (h0 : 0 ≤ t0) (h01 : t0 < t) (h13 : t < t3) (h3 : len < 0 ∨ t3 ≤ len)
    (hz0 : n.All (fun q r => q.f (r.at t0) ≠ 0) r) (hz : n.All (fun q r => q.f (r.at t) ≠ 0) r)
    (hz3 : n.All (fun q r => q.f (r.at t3) ≠ 0) r)
    (hout0 : n.contains (r.at t0) = false) (hin : n.contains (r.at t) = true)
    (hout3 : n.contains (r.at t3) = false)
    (hnh : t ∉ n.ts sq r len)
    (hmid : ∀ t1 ∈ n.ts sq r len, ∀ t2 ∈ n.ts sq r len,
      n.All (fun q r => q.f (r.at ((t1 + t2) / 2)) ≠ 0) r ∨ t1 = t2) :
    ∃ ps, pieces dist n.contains (n.intersections sq sort r len) = some ps ∧
      ∃ t1 t2, t1 < t ∧ t < t2 ∧
        (|dist (r.at t1) (r.at t2)| < 1 / 10 ^ 12 ∨ (r.at t1, r.at t2) ∈ ps) := by
  have hA' := All_mono (fun q r h => h.2) n r hA
  obtain ⟨x, hx, x0, x1⟩ := tree_crossing sq n r len t0 t hA h0 h01
    (h3.imp_right fun h => le_trans (le_of_lt h13) h) (All_and n r hz0 hz) (by rw [hout0, hin]; simp)
  obtain ⟨y, hy, y0, y1⟩ := tree_crossing sq n r len t t3 hA (le_of_lt (lt_of_le_of_lt h0 h01)) h13
    h3 (All_and n r hz hz3) (by rw [hout3, hin]; simp)
  obtain ⟨hperm, hsort, hpts⟩ := C39_tree_order sq sort hs n r len hA'
  have memI : ∀ {a}, a ∈ n.ts sq r len → r.at a ∈ n.intersections sq sort r len := fun ha =>
    hperm.mem_iff.2 (List.mem_map_of_mem ha)
  have hne : n.intersections sq sort r len ≠ [] := List.ne_nil_of_mem (memI hx)
  have tpos : 0 < t := lt_of_le_of_lt h0 h01
  have keylt : ∀ a b : K, 0 < a → a < b → dist2 r.o (r.at a) < dist2 r.o (r.at b) := by
    intro a b ha hab
    rw [dist2_at, dist2_at]
    exact mul_lt_mul_of_pos_right (mul_lt_mul'' hab hab (le_of_lt ha) (le_of_lt ha)) hd
  have keyinv : ∀ a b : K, 0 < a → 0 < b → dist2 r.o (r.at a) < dist2 r.o (r.at b) → a < b := by
    intro a b ha hb hab
    by_contra hc
    push Not at hc
    rcases lt_or_eq_of_le hc with h | h
    · exact absurd (keylt b a hb h) (not_lt.2 (le_of_lt hab))
    · rw [h] at hab; exact lt_irrefl _ hab
  obtain ⟨p, q, hzip, hp, hq⟩ := consecutive_cover (fun p => dist2 r.o p) (dist2 r.o (r.at t)) _ hsort
    ⟨_, memI hx, keylt x t (ts_range sq n r len x hx).1 x1⟩ ⟨_, memI hy, keylt t y tpos y0⟩ (by
      intro z hz' he
      obtain ⟨a, ha, rfl⟩ := List.mem_map.1 (hperm.mem_iff.1 hz')
      have ha0 := (ts_range sq n r len a ha).1
      rcases lt_trichotomy a t with h | h | h
      · exact absurd he (ne_of_lt (keylt a t ha0 h))
      · rw [h] at ha; exact hnh ha
      · exact absurd he (ne_of_gt (keylt t a tpos h)))
  have hpm := (List.of_mem_zip hzip).1
  have hqm := List.mem_of_mem_tail (List.of_mem_zip hzip).2
  obtain ⟨t1, ht1, rfl⟩ := List.mem_map.1 (hperm.mem_iff.1 hpm)
  obtain ⟨t2, ht2, rfl⟩ := List.mem_map.1 (hperm.mem_iff.1 hqm)
  have a1 := (ts_range sq n r len t1 ht1)
  have a2 := (ts_range sq n r len t2 ht2)
  have b1 := keyinv t1 t a1.1 tpos hp
  have b2 := keyinv t t2 tpos a2.1 hq
  refine ⟨_, pieces_spec dist _ _ hne, t1, t2, b1, b2, ?_⟩
  by_cases hlen : |dist (r.at t1) (r.at t2)| < 1 / 10 ^ 12
  · exact Or.inl hlen
  · right
    have hgap : ∀ t ∈ n.ts sq r len, t ≤ t1 ∨ t2 ≤ t := by
      intro a ha
      have ha0 := (ts_range sq n r len a ha).1
      rcases consecutive_gap (fun p => dist2 r.o p) _ hsort _ _ hzip _ (memI ha) with h | h
      · left
        by_contra hc
        push Not at hc
        exact absurd (keylt t1 a a1.1 hc) (not_lt.2 h)
      · right
        by_contra hc
        push Not at hc
        exact absurd (keylt a t2 ha0 hc) (not_lt.2 h)
    rw [List.mem_filter, Bool.and_eq_true, Bool.not_eq_true', softZero, decide_eq_false_iff_not,
      midpoint_at]
    refine ⟨hzip, hlen, ?_⟩
    rw [← hin]
    rcases hmid t1 ht1 t2 ht2 with hm | hm
    · exact const_between hA a1.1 a2.2 hgap ⟨by linarith, by linarith⟩ ⟨b1, b2⟩ hm hz
    · exact absurd (lt_trans b1 b2) (by rw [hm]; exact lt_irrefl _)

/-- C68: the segments of a track: which they are. -/
theorem regionSegs_spec (sq : K → K) (sort : Pt K → List (Pt K) → List (Pt K))
    (dist : Pt K → Pt K → K) (r : Ray K) (len : K) : ∀ (gs : List (Region K)) (i : Nat)
    (l : List (Pt K × Seg K)), regionSegs sq sort dist r len gs i = some l →
    ∀ m s, (m, s) ∈ l ↔ ∃ k g ps p q, gs[k]? = some g ∧ s.region = i + k ∧
      regionPieces sq sort dist g r len = some ps ∧ (p, q) ∈ ps ∧
      m = Pt.smul (1 / 2) (p.add q) ∧ s.length = dist p q := by
  intro gs
  induction gs with
  | nil =>
    intro i l h m s
    rw [regionSegs, Option.some.injEq] at h
    subst h
    simp
  | cons g gs ih =>
    intro i l h m s
    rw [regionSegs] at h
    cases hp : regionPieces sq sort dist g r len with
    | none => rw [hp] at h; cases h
    | some ps =>
      cases hr : regionSegs sq sort dist r len gs (i + 1) with
      | none => rw [hp, hr] at h; cases h
      | some rest =>
        rw [hp, hr] at h
        simp only [Option.some.injEq] at h
        rw [← h, List.mem_append, List.mem_map, ih (i + 1) rest hr m s]
        constructor
        · rintro (⟨pq, hpq, he⟩ | ⟨k, g', ps', p, q, h1, h2, h3⟩)
          · rw [Prod.mk.injEq] at he
            refine ⟨0, g, ps, pq.1, pq.2, rfl, ?_, hp, hpq, he.1.symm, ?_⟩
            · rw [← he.2]; rfl
            · rw [← he.2]
          · exact ⟨k + 1, g', ps', p, q, by rw [List.getElem?_cons_succ]; exact h1, by omega, h3⟩
        · rintro ⟨k, g', ps', p, q, h1, h2, h3, h4, h5, h6⟩
          cases k with
          | zero =>
            rw [List.getElem?_cons_zero, Option.some.injEq] at h1
            rw [← h1, hp, Option.some.injEq] at h3
            left
            refine ⟨(p, q), by rw [h3]; exact h4, ?_⟩
            rw [h5]
            cases s
            simp_all
          | succ k =>
            rw [List.getElem?_cons_succ] at h1
            exact Or.inr ⟨k, g', ps', p, q, h1, by omega, h3, h4, h5, h6⟩

/-- C68: the segments given to a track are exactly the kept pieces of the regions whose box the track
    meets, each tagged with its region number and length, in order of midpoint distance from the
    entrance. -/
theorem C68_segments (sq : K → K) (sort : Pt K → List (Pt K) → List (Pt K))
    (dist : Pt K → Pt K → K) (msort : Pt K → List (Pt K × Seg K) → List (Pt K × Seg K))
    (hm : ∀ o l, (msort o l).Perm l ∧ (msort o l).Pairwise fun a b => dist2 o a.1 ≤ dist2 o b.1)
    (gs : List (Region K)) (p0 p1 : Pt K) (l : List (Pt K × Seg K))
    (h : segmentize sq sort dist msort gs p0 p1 = some l) :
    l.Pairwise (fun a b => dist2 p0 a.1 ≤ dist2 p0 b.1) ∧
    ∀ m s, (m, s) ∈ l ↔ ∃ g n ps p q, gs[s.region]? = some g ∧ g.node = some n ∧
      g.hitsBox (trackRay dist p0 p1) (trackLen dist p0 p1) = true ∧
      pieces dist n.contains
        (n.intersections sq sort (trackRay dist p0 p1) (trackLen dist p0 p1)) = some ps ∧
      (p, q) ∈ ps ∧ m = Pt.smul (1 / 2) (p.add q) ∧ s.length = dist p q := by
  unfold segmentize at h
  rw [Option.map_eq_some_iff] at h
  obtain ⟨l', hl', rfl⟩ := h
  refine ⟨(hm _ _).2, fun m s => ?_⟩
  rw [(hm _ _).1.mem_iff, regionSegs_spec sq sort dist _ _ gs 0 l' hl' m s]
  constructor
  · rintro ⟨k, g, ps, p, q, h1, h2, h3, h4, h5, h6⟩
    rw [Nat.zero_add] at h2
    unfold regionPieces at h3
    by_cases hb : g.hitsBox (trackRay dist p0 p1) (trackLen dist p0 p1) = true
    · rw [if_pos hb, Option.bind_eq_some_iff] at h3
      obtain ⟨n, hn, h3⟩ := h3
      exact ⟨g, n, ps, p, q, by rw [h2]; exact h1, hn, hb, h3, h4, h5, h6⟩
    · rw [if_neg hb, Option.some.injEq] at h3
      rw [← h3] at h4; cases h4
  · rintro ⟨g, n, ps, p, q, h1, h2, h3, h4, h5⟩
    refine ⟨s.region, g, ps, p, q, h1, (Nat.zero_add _).symm, ?_, h5⟩
    unfold regionPieces
    rw [if_pos h3, h2]
    exact h4

/-- C68: the ray of a track passes through its entrance and its exit, `1e-9` after its start and `1e-9`
    before its end. -/
theorem C68_track_ray (dist : Pt K → Pt K → K) (p0 p1 : Pt K) (h : 0 < dist p0 p1) :
    ∃ t0 t1, (trackRay dist p0 p1).at t0 = p0 ∧ (trackRay dist p0 p1).at t1 = p1 ∧
      t0 = 1 / 10 ^ 9 ∧ t1 = trackLen dist p0 p1 - 1 / 10 ^ 9 ∧ t1 - t0 = dist p0 p1 ∧
      ∀ t, 0 < t ∧ t < 1 → (trackRay dist p0 p1).at (t0 + t * (t1 - t0)) =
        (Pt.smul (1 - t) p0).add (Pt.smul t p1) := by
  have h' := h.ne'
  refine ⟨1 / 10 ^ 9, dist p0 p1 + 1 / 10 ^ 9, ?_, ?_, rfl, ?_, by ring, fun t _ => ?_⟩
  · simp only [Ray.at, trackRay, Pt.add, Pt.smul, Pt.sub]
    cases p0
    congr 1 <;> ring
  · simp only [Ray.at, trackRay, Pt.add, Pt.smul, Pt.sub]
    cases p1
    congr 1 <;> (field_simp; ring)
  · unfold trackLen; ring
  · simp only [Ray.at, trackRay, Pt.add, Pt.smul, Pt.sub]
    congr 1 <;> (field_simp; ring)

example : (trackRay (fun p q : Pt ℚ => |p.x - q.x|) ⟨0, 1, 0⟩ ⟨2, 1, 0⟩).at (2 + 1 / 10 ^ 9) = ⟨2, 1, 0⟩ := by
  decide +kernel

/-- C68: the claim that segmentation never reads outside its point list (with a square root that is
    right for every discriminant met, a correct sort, and regions that all have a node). -/
def C68Claim : Prop := ∀ (sq : ℚ → ℚ) (sort : Pt ℚ → List (Pt ℚ) → List (Pt ℚ)), SortsByDist sort →
  ∀ dist msort (gs : List (Region ℚ)) (p0 p1 : Pt ℚ),
    (∀ g ∈ gs, ∃ n, g.node = some n ∧ n.All (fun q r => SqAt sq (disc q r)) (trackRay dist p0 p1)) →
    segmentize sq sort dist msort gs p0 p1 ≠ none

/-- A distance for points on a horizontal line. -/
def xdist (p q : Pt ℚ) : ℚ := |p.x - q.x|

/-- A pin cell of pitch 2 with a fuel pin of radius 1/4, and no divisions. -/
def exPin : Pin ℚ := ⟨⟨2, 2, 0⟩, ⟨0, 0, 0⟩, [1 / 4], [1, 0], 0⟩

/-- Decision procedure for the square-root condition. -/
def sqOk (sq : ℚ → ℚ) : Node ℚ → Ray ℚ → Bool
  | .prim q _, r => decide (disc q r ≤ 0) ||
      (decide (0 < sq (disc q r)) && decide (sq (disc q r) * sq (disc q r) = disc q r))
  | .union L R, r => sqOk sq L r && sqOk sq R r
  | .inter L R, r => sqOk sq L r && sqOk sq R r
  | .diff L R, r => sqOk sq L r && sqOk sq R r
  | .trans n t, r => sqOk sq n ⟨r.o.sub t, r.d⟩

theorem sqOk_all (sq : ℚ → ℚ) (n : Node ℚ) : ∀ r, sqOk sq n r = true →
    n.All (fun q r => SqAt sq (disc q r)) r := by
  induction n with
  | prim q b =>
    intro r h hd
    simp only [sqOk, Bool.or_eq_true, Bool.and_eq_true, decide_eq_true_eq] at h
    exact h.resolve_left (not_le.2 hd)
  | union L R hL hR | inter L R hL hR | diff L R hL hR =>
    intro r h
    simp only [sqOk, Bool.and_eq_true] at h
    exact ⟨hL r h.1, hR r h.2⟩
  | trans n t ih => intro r h; exact ih _ h

/-- C68: it fails: a track crossing a pin cell beside the fuel meets the fuel region's box but none of
    its surfaces; the loop bound `size() - 1` wraps around. -/
theorem C68_empty_points_ub : ¬ C68Claim := by
  intro h
  refine h (fun x => if x = 4 then 2 else 1) isort isort_sorts xdist (fun _ l => l) exPin.regions
    ⟨0, 1 / 8, 0⟩ ⟨2, 1 / 8, 0⟩ ?_ (by decide +kernel)
  have hk : ∀ g ∈ exPin.regions, ∃ n, g.node = some n ∧
      sqOk (fun x => if x = 4 then 2 else 1) n (trackRay xdist ⟨0, 1 / 8, 0⟩ ⟨2, 1 / 8, 0⟩) = true := by
    intro g hg
    have hall : (exPin.regions.all fun g => match g.node with
        | some n => sqOk (fun x => if x = 4 then 2 else 1) n
            (trackRay xdist ⟨0, 1 / 8, 0⟩ ⟨2, 1 / 8, 0⟩)
        | none => false) = true := by decide +kernel
    have := List.all_eq_true.1 hall g hg
    cases hn : g.node with
    | none => rw [hn] at this; cases this
    | some n => rw [hn] at this; exact ⟨n, rfl, this⟩
  intro g hg
  obtain ⟨n, hn, hs⟩ := hk g hg
  exact ⟨n, hn, sqOk_all _ n _ hs⟩

/-- Another track of the same cell, through the fuel's centre: two coolant pieces and one of fuel. -/
example : segmentize (fun x : ℚ => if x = 1 then 1 else if x = 4 then 2 else 1) isort xdist
    (fun o l => l.insertionSort fun a b => dist2 o a.1 ≤ dist2 o b.1) exPin.regions ⟨0, 1, 0⟩ ⟨2, 1, 0⟩ =
    some [(⟨3 / 8, 1, 0⟩, ⟨1, 3 / 4⟩), (⟨1, 1, 0⟩, ⟨0, 1 / 2⟩), (⟨13 / 8, 1, 0⟩, ⟨1, 3 / 4⟩)] := by
  decide +kernel

/-- C68: segmentation is defined when every region whose box is met has an intersection. -/
theorem C68_defined (sq : K → K) (sort : Pt K → List (Pt K) → List (Pt K))
    (dist : Pt K → Pt K → K) (msort : Pt K → List (Pt K × Seg K) → List (Pt K × Seg K))
    (gs : List (Region K)) (p0 p1 : Pt K)
    (h : ∀ g ∈ gs, g.hitsBox (trackRay dist p0 p1) (trackLen dist p0 p1) = true → ∃ n, g.node = some n ∧
      n.intersections sq sort (trackRay dist p0 p1) (trackLen dist p0 p1) ≠ []) :
    segmentize sq sort dist msort gs p0 p1 ≠ none := by
  have key : ∀ (gs : List (Region K)) (i : Nat),
      (∀ g ∈ gs, g.hitsBox (trackRay dist p0 p1) (trackLen dist p0 p1) = true → ∃ n, g.node = some n ∧
      n.intersections sq sort (trackRay dist p0 p1) (trackLen dist p0 p1) ≠ []) →
      ∃ l, regionSegs sq sort dist (trackRay dist p0 p1) (trackLen dist p0 p1) gs i = some l := by
    intro gs
    induction gs with
    | nil => intro i _; exact ⟨[], rfl⟩
    | cons g gs ih =>
      intro i hg
      obtain ⟨l, hl⟩ := ih (i + 1) fun g' hg' => hg g' (List.mem_cons_of_mem _ hg')
      have : ∃ ps, regionPieces sq sort dist g (trackRay dist p0 p1) (trackLen dist p0 p1) = some ps := by
        unfold regionPieces
        by_cases hb : g.hitsBox (trackRay dist p0 p1) (trackLen dist p0 p1) = true
        · obtain ⟨n, hn, hne⟩ := hg g List.mem_cons_self hb
          rw [if_pos hb, hn, Option.bind_some, pieces_spec dist _ _ hne]
          exact ⟨_, rfl⟩
        · rw [if_neg hb]; exact ⟨_, rfl⟩
      obtain ⟨ps, hps⟩ := this
      rw [regionSegs, hps, hl]
      exact ⟨_, rfl⟩
  obtain ⟨l, hl⟩ := key gs 0 h
  unfold segmentize
  rw [hl]
  simp

end Detran.Geom
