import Verif.Model.Geometry
import Mathlib.Tactic.Ring
import Mathlib.Tactic.LinearCombination
import Mathlib.Tactic.FieldSimp
import Mathlib.Tactic.Linarith
import Mathlib.Tactic.Positivity

namespace Detran.Geom

variable {K : Type} [Field K] [LinearOrder K] [IsStrictOrderedRing K]

omit [LinearOrder K] [IsStrictOrderedRing K] in
theorem abc_spec (q : Quad K) (r : Ray K) (t : K) :
    2 * q.f (r.at t) = (q.abc r).1 * t * t + (q.abc r).2.1 * t + (q.abc r).2.2 := by
  simp only [Quad.abc, Quad.f, Ray.at, Pt.add, Pt.smul, dot4, Quad.mul, Quad.m, List.range,
    List.range.loop, List.foldl, List.map, List.getD_cons_succ, List.getD_cons_zero]
  norm_num
  ring

omit [IsStrictOrderedRing K] in
theorem mem_hits {sq : K → K} {q : Quad K} {r : Ray K} {m t : K} :
    t ∈ q.hits sq r m ↔
      (t = (q.roots sq r).1 ∨ t = (q.roots sq r).2) ∧ 0 < t ∧ (m < 0 ∨ t ≤ m) := by
  unfold Quad.hits
  simp only [List.mem_filter, List.mem_cons, List.not_mem_nil, or_false, Bool.and_eq_true,
    Bool.or_eq_true, decide_eq_true_eq]
  refine and_congr_left fun _ => ?_
  by_cases h : (q.roots sq r).2 ≤ (q.roots sq r).1
  · rw [if_pos h, if_neg (not_lt.2 h)]; exact or_comm
  · rw [if_neg h, if_pos (not_le.1 h)]

omit [IsStrictOrderedRing K] in
theorem sense_false (q : Quad K) (p : Pt K) : q.sense p = false ↔ q.f p < 0 := by
  unfold Quad.sense
  rw [decide_eq_false_iff_not, not_le]

omit [IsStrictOrderedRing K] in
theorem sense_true (q : Quad K) (p : Pt K) : q.sense p = true ↔ 0 ≤ q.f p := by
  unfold Quad.sense
  rw [decide_eq_true_eq]

theorem tiny_pos : (0 : K) < tiny := by unfold tiny; positivity

/-- The root property of the square root, at the discriminant. -/
def SqAt (sq : K → K) (x : K) : Prop := 0 < x → 0 < sq x ∧ sq x * sq x = x

def disc (q : Quad K) (r : Ray K) : K :=
  (q.abc r).2.1 * (q.abc r).2.1 - 4 * (q.abc r).1 * (q.abc r).2.2

theorem roots_linear {sq : K → K} {q : Quad K} {r : Ray K} (h : |(q.abc r).1| < tiny) :
    q.roots sq r = (if tiny < |(q.abc r).2.1| then -(q.abc r).2.2 / (q.abc r).2.1 else 0, 0) := by
  unfold Quad.roots
  simp only [if_pos h]

theorem roots_none {sq : K → K} {q : Quad K} {r : Ray K} (h : ¬ |(q.abc r).1| < tiny)
    (hd : ¬ 0 < disc q r) : q.roots sq r = (0, 0) := by
  unfold Quad.roots
  have : ¬ 4 * (q.abc r).1 * (q.abc r).2.2 < (q.abc r).2.1 * (q.abc r).2.1 := by
    unfold disc at hd; linarith
  simp only [if_neg h, if_neg this]

theorem roots_two {sq : K → K} {q : Quad K} {r : Ray K} (h : ¬ |(q.abc r).1| < tiny)
    (hd : 0 < disc q r) : q.roots sq r =
      ((-(q.abc r).2.1 + sq (disc q r)) / (2 * (q.abc r).1),
       (-(q.abc r).2.1 - sq (disc q r)) / (2 * (q.abc r).1)) := by
  unfold Quad.roots
  have : 4 * (q.abc r).1 * (q.abc r).2.2 < (q.abc r).2.1 * (q.abc r).2.1 := by
    unfold disc at hd; linarith
  simp only [if_neg h, if_pos this]
  rfl

theorem ne_of_tiny {a : K} (h : ¬ |a| < tiny) : a ≠ 0 := by
  rintro rfl
  exact h (by rw [abs_zero]; exact tiny_pos)

/-- `(2at+b)^2 - disc = 8 a f`. -/
theorem square_spec (q : Quad K) (r : Ray K) (t : K) :
    (2 * (q.abc r).1 * t + (q.abc r).2.1) * (2 * (q.abc r).1 * t + (q.abc r).2.1) - disc q r =
      8 * (q.abc r).1 * q.f (r.at t) := by
  have h := abc_spec q r t
  unfold disc
  linear_combination (-4 * (q.abc r).1) * h

/-- Membership in the hits in the genuinely quadratic case. -/
theorem mem_hits_quad {sq : K → K} {q : Quad K} {r : Ray K} {m t : K}
    (h : ¬ |(q.abc r).1| < tiny) (hd : 0 < disc q r) (hs : SqAt sq (disc q r)) :
    t ∈ q.hits sq r m ↔ q.f (r.at t) = 0 ∧ 0 < t ∧ (m < 0 ∨ t ≤ m) := by
  rw [mem_hits, roots_two h hd]
  refine and_congr_left fun _ => ?_
  have ha := ne_of_tiny h
  have hsq := square_spec q r t
  obtain ⟨_, h2⟩ := hs hd
  simp only [eq_div_iff (mul_ne_zero two_ne_zero ha)]
  constructor
  · intro h'
    have : 8 * (q.abc r).1 * q.f (r.at t) = 0 := by
      rw [← hsq, ← h2]
      rcases h' with h' | h'
      · have : 2 * (q.abc r).1 * t + (q.abc r).2.1 = sq (disc q r) := by linear_combination h'
        rw [this, h2, sub_self]
      · have : 2 * (q.abc r).1 * t + (q.abc r).2.1 = -sq (disc q r) := by linear_combination h'
        rw [this, neg_mul_neg, h2, sub_self]
    rcases mul_eq_zero.1 this with h0 | h0
    · exact absurd h0 (mul_ne_zero (by norm_num) ha)
    · exact h0
  · intro h'
    rw [h', mul_zero, ← h2] at hsq
    rw [mul_self_sub_mul_self] at hsq
    rcases mul_eq_zero.1 hsq with h0 | h0
    · right; linear_combination h0
    · left; linear_combination h0

theorem mem_hits_lin {sq : K → K} {q : Quad K} {r : Ray K} {m t : K}
    (h : |(q.abc r).1| < tiny) :
    t ∈ q.hits sq r m ↔ (tiny < |(q.abc r).2.1| ∧ (q.abc r).2.1 * t + (q.abc r).2.2 = 0) ∧
      0 < t ∧ (m < 0 ∨ t ≤ m) := by
  rw [mem_hits, roots_linear h]
  refine and_congr_left fun ht => ?_
  have ht0 : t ≠ 0 := ne_of_gt ht.1
  by_cases hb : tiny < |(q.abc r).2.1|
  · have hb0 : (q.abc r).2.1 ≠ 0 := by
      intro e; rw [e, abs_zero] at hb; exact absurd hb (not_lt.2 (le_of_lt tiny_pos))
    simp only [hb, if_true, true_and, ht0, or_false]
    rw [eq_div_iff hb0]
    constructor <;> intro h' <;> linear_combination h'
  · simp only [hb, if_false, ht0, false_and, or_self]

theorem mem_hits_none {sq : K → K} {q : Quad K} {r : Ray K} {m t : K}
    (h : ¬ |(q.abc r).1| < tiny) (hd : ¬ 0 < disc q r) : ¬ t ∈ q.hits sq r m := by
  rw [mem_hits, roots_none h hd]
  rintro ⟨h1, h2, _⟩
  rcases h1 with rfl | rfl <;> exact absurd h2 (lt_irrefl _)

/-- The surface is not almost degenerate along the ray: the code's thresholds do not bite. -/
def Nondeg (q : Quad K) (r : Ray K) : Prop :=
  ¬ |(q.abc r).1| < tiny ∨ ((q.abc r).1 = 0 ∧ ((q.abc r).2.1 = 0 ∨ tiny < |(q.abc r).2.1|))

theorem between_of_sq {s u1 u2 : K} (hs : 0 < s) (h : (u1 * u1 - s * s) * (u2 * u2 - s * s) < 0) :
    ∃ v, (v = s ∨ v = -s) ∧ ((u1 < v ∧ v < u2) ∨ (u2 < v ∧ v < u1)) := by
  have key : ∀ w1 w2 : K, w1 * w1 - s * s < 0 → 0 < w2 * w2 - s * s →
      ∃ v, (v = s ∨ v = -s) ∧ ((w1 < v ∧ v < w2) ∨ (w2 < v ∧ v < w1)) := by
    intro w1 w2 h1 h2
    have h1' : |w1| < s := by
      have : |w1| * |w1| < s * s := by rw [abs_mul_abs_self]; linarith
      by_contra hc
      push Not at hc
      exact absurd (mul_le_mul hc hc (le_of_lt hs) (abs_nonneg _)) (not_le.2 this)
    obtain ⟨ha, hb⟩ := abs_lt.1 h1'
    have h2' : s < |w2| := by
      have : s * s < |w2| * |w2| := by rw [abs_mul_abs_self]; linarith
      by_contra hc
      push Not at hc
      exact absurd (mul_le_mul hc hc (abs_nonneg _) (le_of_lt hs)) (not_le.2 this)
    rcases lt_abs.1 h2' with h3 | h3
    · exact ⟨s, Or.inl rfl, Or.inl ⟨hb, h3⟩⟩
    · exact ⟨-s, Or.inr rfl, Or.inr ⟨by linarith, ha⟩⟩
  rcases mul_neg_iff.1 h with ⟨h1, h2⟩ | ⟨h1, h2⟩
  · obtain ⟨v, hv, h⟩ := key u2 u1 h2 h1
    exact ⟨v, hv, h.symm⟩
  · exact key u1 u2 h1 h2

theorem crossing {sq : K → K} {q : Quad K} {r : Ray K} {m t1 t2 : K} (hn : Nondeg q r)
    (hs : SqAt sq (disc q r)) (h0 : 0 ≤ t1) (h12 : t1 < t2) (hm : m < 0 ∨ t2 ≤ m)
    (hf : q.f (r.at t1) * q.f (r.at t2) < 0) : ∃ t ∈ q.hits sq r m, t1 < t ∧ t < t2 := by
  have hrange : ∀ t, t1 < t → t < t2 → 0 < t ∧ (m < 0 ∨ t ≤ m) := fun t ha hb =>
    ⟨lt_of_le_of_lt h0 ha, hm.imp_right fun h => le_trans (le_of_lt hb) h⟩
  rcases hn with hn | ⟨ha0, hb⟩
  · have ha := ne_of_tiny hn
    have e1 := square_spec q r t1
    have e2 := square_spec q r t2
    have hd : 0 < disc q r := by
      by_contra hc
      push Not at hc
      have p1 : 0 ≤ 8 * (q.abc r).1 * q.f (r.at t1) := by
        rw [← e1]
        have := mul_self_nonneg (2 * (q.abc r).1 * t1 + (q.abc r).2.1)
        linarith
      have p2 : 0 ≤ 8 * (q.abc r).1 * q.f (r.at t2) := by
        rw [← e2]
        have := mul_self_nonneg (2 * (q.abc r).1 * t2 + (q.abc r).2.1)
        linarith
      have p3 := mul_nonneg p1 p2
      have p4 : (8 * (q.abc r).1) * (8 * (q.abc r).1) * (q.f (r.at t1) * q.f (r.at t2)) < 0 :=
        mul_neg_of_pos_of_neg (mul_self_pos.2 (mul_ne_zero (by norm_num) ha)) hf
      have p5 : (8 * (q.abc r).1 * q.f (r.at t1)) * (8 * (q.abc r).1 * q.f (r.at t2)) < 0 := by
        rw [show (8 * (q.abc r).1 * q.f (r.at t1)) * (8 * (q.abc r).1 * q.f (r.at t2)) =
          (8 * (q.abc r).1) * (8 * (q.abc r).1) * (q.f (r.at t1) * q.f (r.at t2)) by ring]
        exact p4
      exact absurd p3 (not_le.2 p5)
    obtain ⟨hs1, hs2⟩ := hs hd
    have hprod : ((2 * (q.abc r).1 * t1 + (q.abc r).2.1) * (2 * (q.abc r).1 * t1 + (q.abc r).2.1) -
        sq (disc q r) * sq (disc q r)) *
        ((2 * (q.abc r).1 * t2 + (q.abc r).2.1) * (2 * (q.abc r).1 * t2 + (q.abc r).2.1) -
        sq (disc q r) * sq (disc q r)) < 0 := by
      rw [hs2, e1, e2]
      have p4 : (8 * (q.abc r).1) * (8 * (q.abc r).1) * (q.f (r.at t1) * q.f (r.at t2)) < 0 :=
        mul_neg_of_pos_of_neg (mul_self_pos.2 (mul_ne_zero (by norm_num) ha)) hf
      rw [show (8 * (q.abc r).1 * q.f (r.at t1)) * (8 * (q.abc r).1 * q.f (r.at t2)) =
          (8 * (q.abc r).1) * (8 * (q.abc r).1) * (q.f (r.at t1) * q.f (r.at t2)) by ring]
      exact p4
    obtain ⟨v, hv, hb⟩ := between_of_sq hs1 hprod
    have hvv : v * v = disc q r := by
      rcases hv with rfl | rfl
      · exact hs2
      · rw [neg_mul_neg]; exact hs2
    have h2a : (2 * (q.abc r).1) ≠ 0 := mul_ne_zero two_ne_zero ha
    have ht : 2 * (q.abc r).1 * ((v - (q.abc r).2.1) / (2 * (q.abc r).1)) + (q.abc r).2.1 = v := by
      rw [mul_div_cancel₀ _ h2a]; ring
    generalize (v - (q.abc r).2.1) / (2 * (q.abc r).1) = t at ht
    have hbt : t1 < t ∧ t < t2 := by
      rcases lt_or_gt_of_ne ha with hneg | hpos
      · rcases hb with hb | hb <;> constructor <;> by_contra hc <;> push Not at hc <;>
          nlinarith [mul_le_mul_of_nonpos_left hc (le_of_lt hneg), mul_lt_mul_of_neg_left h12 hneg]
      · rcases hb with hb | hb <;> constructor <;> by_contra hc <;> push Not at hc <;>
          nlinarith [mul_le_mul_of_nonneg_left hc (le_of_lt hpos), mul_lt_mul_of_pos_left h12 hpos]
    refine ⟨t, (mem_hits_quad hn hd hs).2 ⟨?_, hrange t hbt.1 hbt.2⟩, hbt⟩
    have e3 := square_spec q r t
    rw [ht, hvv, sub_self] at e3
    rcases mul_eq_zero.1 e3.symm with h | h
    · exact absurd h (mul_ne_zero (by norm_num) ha)
    · exact h
  · have e : ∀ t, 2 * q.f (r.at t) = (q.abc r).2.1 * t + (q.abc r).2.2 := by
      intro t
      have := abc_spec q r t
      rw [ha0] at this
      linear_combination this
    have e1 := e t1
    have e2 := e t2
    have hb0 : (q.abc r).2.1 ≠ 0 := by
      intro hb0
      rw [hb0, zero_mul, zero_add] at e1 e2
      have h12' : q.f (r.at t1) = q.f (r.at t2) := by
        have : (2 : K) * q.f (r.at t1) = 2 * q.f (r.at t2) := by rw [e1, e2]
        exact mul_left_cancel₀ two_ne_zero this
      rw [h12'] at hf
      exact absurd hf (not_lt.2 (mul_self_nonneg _))
    have hb' := hb.resolve_left hb0
    have ht : (q.abc r).2.1 * (-(q.abc r).2.2 / (q.abc r).2.1) + (q.abc r).2.2 = 0 := by
      rw [mul_div_cancel₀ _ hb0]; ring
    generalize -(q.abc r).2.2 / (q.abc r).2.1 = t at ht
    have hlin : (q.abc r).2.1 * (t1 - t) * ((q.abc r).2.1 * (t2 - t)) < 0 := by
      have : (q.abc r).2.1 * (t1 - t) * ((q.abc r).2.1 * (t2 - t)) =
          4 * (q.f (r.at t1) * q.f (r.at t2)) := by
        have g1 : (q.abc r).2.1 * (t1 - t) = 2 * q.f (r.at t1) := by linear_combination -e1 - ht
        have g2 : (q.abc r).2.1 * (t2 - t) = 2 * q.f (r.at t2) := by linear_combination -e2 - ht
        rw [g1, g2]; ring
      rw [this]; linarith
    have hbt : t1 < t ∧ t < t2 := by
      have h3 : (t1 - t) * (t2 - t) < 0 := by
        by_contra hc
        push Not at hc
        have : 0 ≤ (q.abc r).2.1 * (t1 - t) * ((q.abc r).2.1 * (t2 - t)) := by
          rw [show (q.abc r).2.1 * (t1 - t) * ((q.abc r).2.1 * (t2 - t)) =
            (q.abc r).2.1 * (q.abc r).2.1 * ((t1 - t) * (t2 - t)) by ring]
          exact mul_nonneg (mul_self_nonneg _) hc
        exact absurd this (not_le.2 hlin)
      rcases mul_neg_iff.1 h3 with ⟨p, n⟩ | ⟨n, p⟩
      · exact absurd h12 (by push Not; linarith)
      · constructor <;> linarith
    refine ⟨t, (mem_hits_lin ?_).2 ⟨⟨hb', ht⟩, hrange t hbt.1 hbt.2⟩, hbt⟩
    rw [ha0, abs_zero]; exact tiny_pos

/-! ## Trees -/

/-- A statement about every leaf surface and the ray as that leaf sees it. -/
def Node.All (P : Quad K → Ray K → Prop) : Node K → Ray K → Prop
  | .prim s _, r => P s r
  | .union L R, r => L.All P r ∧ R.All P r
  | .inter L R, r => L.All P r ∧ R.All P r
  | .diff L R, r => L.All P r ∧ R.All P r
  | .trans n t, r => n.All P ⟨r.o.sub t, r.d⟩

/-- All leaf hit parameters. -/
def Node.ts (sq : K → K) : Node K → Ray K → K → List K
  | .prim s _, r, m => s.hits sq r m
  | .union L R, r, m => L.ts sq r m ++ R.ts sq r m
  | .inter L R, r, m => L.ts sq r m ++ R.ts sq r m
  | .diff L R, r, m => L.ts sq r m ++ R.ts sq r m
  | .trans n t, r, m => n.ts sq ⟨r.o.sub t, r.d⟩ m

/-- `sort o` sorts by distance from `o`. -/
def SortsByDist (sort : Pt K → List (Pt K) → List (Pt K)) : Prop :=
  ∀ o l, (sort o l).Perm l ∧ (sort o l).Pairwise fun p q => dist2 o p ≤ dist2 o q

omit [LinearOrder K] [IsStrictOrderedRing K] in
theorem at_trans (r : Ray K) (tr : Pt K) (t : K) :
    (r.at t).sub tr = Ray.at ⟨r.o.sub tr, r.d⟩ t := by
  simp only [Ray.at, Pt.add, Pt.sub, Pt.smul]
  ext <;> simp <;> ring

omit [LinearOrder K] [IsStrictOrderedRing K] in
theorem sub_add' (p t : Pt K) : (p.sub t).add t = p := by
  simp only [Pt.add, Pt.sub]
  ext <;> simp

omit [LinearOrder K] [IsStrictOrderedRing K] in
theorem at_trans' (r : Ray K) (tr : Pt K) (t : K) :
    (Ray.at ⟨r.o.sub tr, r.d⟩ t).add tr = r.at t := by
  rw [← at_trans, sub_add']

theorem inter_perm {sq : K → K} {sort : Pt K → List (Pt K) → List (Pt K)} (hs : SortsByDist sort)
    (n : Node K) : ∀ (r : Ray K) (m : K),
      (n.intersections sq sort r m).Perm ((n.ts sq r m).map r.at) := by
  induction n with
  | prim s b => intro r m; exact List.Perm.refl _
  | union L R hL hR | inter L R hL hR | diff L R hL hR =>
    intro r m
    refine (hs _ _).1.trans ?_
    rw [Node.ts, List.map_append]
    exact (hL r m).append (hR r m)
  | trans n t h =>
    intro r m
    rw [Node.intersections, Node.ts]
    refine ((h _ m).map _).trans ?_
    rw [List.map_map]
    refine List.Perm.of_eq (List.map_congr_left fun x _ => ?_)
    exact at_trans' r t x

def norm2 (d : Pt K) : K := d.x * d.x + d.y * d.y + d.z * d.z

omit [LinearOrder K] [IsStrictOrderedRing K] in
theorem dist2_at (r : Ray K) (t : K) : dist2 r.o (r.at t) = t * t * norm2 r.d := by
  simp only [dist2, Ray.at, Pt.add, Pt.smul, norm2]; ring

theorem norm2_nonneg (d : Pt K) : 0 ≤ norm2 d :=
  add_nonneg (add_nonneg (mul_self_nonneg _) (mul_self_nonneg _)) (mul_self_nonneg _)

theorem hits_ascending (sq : K → K) (q : Quad K) (r : Ray K) (m : K)
    (hs : SqAt sq (disc q r)) : (q.hits sq r m).Pairwise (· < ·) := by
  have key : ∀ a b : K, (a < b ∨ a ≤ 0) → ([a, b].filter fun tt =>
      decide (0 < tt) && (decide (m < 0) || decide (tt ≤ m))).Pairwise (· < ·) := by
    intro a b hab
    rcases hab with hab | hab
    · exact List.Pairwise.filter _ (by simp [hab])
    · have h0 : decide (0 < a) = false := decide_eq_false (not_lt.2 hab)
      rw [List.filter_cons_of_neg (by rw [h0]; simp)]
      exact List.Pairwise.filter _ (by simp)
  unfold Quad.hits
  refine key _ _ ?_
  by_cases ha : |(q.abc r).1| < tiny
  · rw [roots_linear ha]
    generalize (if tiny < |(q.abc r).2.1| then -(q.abc r).2.2 / (q.abc r).2.1 else 0) = x
    by_cases hx : (0 : K) ≤ x
    · right; rw [if_pos hx]
    · right; rw [if_neg hx]; exact le_of_lt (not_le.1 hx)
  · by_cases hd : 0 < disc q r
    · rw [roots_two ha hd]
      left
      obtain ⟨h1, _⟩ := hs hd
      have hne : (-(q.abc r).2.1 + sq (disc q r)) / (2 * (q.abc r).1) ≠
          (-(q.abc r).2.1 - sq (disc q r)) / (2 * (q.abc r).1) := by
        intro h
        rw [div_left_inj' (mul_ne_zero two_ne_zero (ne_of_tiny ha))] at h
        linarith
      generalize (-(q.abc r).2.1 + sq (disc q r)) / (2 * (q.abc r).1) = x at hne
      generalize (-(q.abc r).2.1 - sq (disc q r)) / (2 * (q.abc r).1) = y at hne
      change (if y ≤ x then y else x) < (if x < y then y else x)
      rcases lt_or_gt_of_ne hne with h | h
      · rw [if_neg (not_le.2 h), if_pos h]; exact h
      · rw [if_pos (le_of_lt h), if_neg (not_lt.2 (le_of_lt h))]; exact h
    · rw [roots_none ha hd]
      right; simp

theorem ts_range (sq : K → K) (n : Node K) : ∀ (r : Ray K) (m t : K), t ∈ n.ts sq r m →
    0 < t ∧ (m < 0 ∨ t ≤ m) := by
  induction n with
  | prim s b => intro r m t h; exact (mem_hits.1 h).2
  | union L R hL hR | inter L R hL hR | diff L R hL hR =>
    intro r m t h
    rcases List.mem_append.1 h with h | h
    · exact hL r m t h
    · exact hR r m t h
  | trans n tr h => intro r m t ht; exact h _ m t ht

omit [LinearOrder K] [IsStrictOrderedRing K] in
theorem dist2_trans (o p t : Pt K) : dist2 o (p.add t) = dist2 (o.sub t) p := by
  simp only [dist2, Pt.add, Pt.sub]; ring

theorem inter_sorted {sq : K → K} {sort : Pt K → List (Pt K) → List (Pt K)} (hs : SortsByDist sort)
    (n : Node K) : ∀ (r : Ray K) (m : K), n.All (fun q r => SqAt sq (disc q r)) r →
      (n.intersections sq sort r m).Pairwise fun p q => dist2 r.o p ≤ dist2 r.o q := by
  induction n with
  | prim s b =>
    intro r m hA
    rw [Node.intersections, Quad.intersections, List.pairwise_map]
    have hpos : ∀ t ∈ s.hits sq r m, 0 < t := fun t ht => (mem_hits.1 ht).2.1
    refine (hits_ascending sq s r m hA).imp_of_mem fun {a b} ha _ hab => ?_
    rw [dist2_at, dist2_at]
    exact mul_le_mul_of_nonneg_right (mul_self_le_mul_self (le_of_lt (hpos a ha)) (le_of_lt hab))
      (norm2_nonneg _)
  | union L R hL hR | inter L R hL hR | diff L R hL hR => intro r m _; exact (hs _ _).2
  | trans n t h =>
    intro r m hA
    rw [Node.intersections, List.pairwise_map]
    refine (h _ m hA).imp fun {p q} hpq => ?_
    rw [dist2_trans, dist2_trans]; exact hpq

theorem tree_crossing (sq : K → K) (n : Node K) : ∀ (r : Ray K) (m t1 t2 : K),
    n.All (fun q r => Nondeg q r ∧ SqAt sq (disc q r)) r → 0 ≤ t1 → t1 < t2 → (m < 0 ∨ t2 ≤ m) →
    n.All (fun q r => q.f (r.at t1) ≠ 0 ∧ q.f (r.at t2) ≠ 0) r →
    n.contains (r.at t1) ≠ n.contains (r.at t2) →
    ∃ t ∈ n.ts sq r m, t1 < t ∧ t < t2 := by
  induction n with
  | prim s b =>
    intro r m t1 t2 hA h0 h12 hm hz hc
    refine crossing hA.1 hA.2 h0 h12 hm ?_
    obtain ⟨z1, z2⟩ := hz
    simp only [Node.contains, Quad.sense] at hc
    by_contra hn
    push Not at hn
    apply hc
    have : decide (0 ≤ s.f (r.at t1)) = decide (0 ≤ s.f (r.at t2)) := by
      rw [decide_eq_decide]
      rcases lt_or_gt_of_ne z1 with h1 | h1 <;> rcases lt_or_gt_of_ne z2 with h2 | h2
      · exact ⟨fun h => absurd h (not_le.2 h1), fun h => absurd h (not_le.2 h2)⟩
      · exact absurd hn (not_le.2 (mul_neg_of_neg_of_pos h1 h2))
      · exact absurd hn (not_le.2 (mul_neg_of_pos_of_neg h1 h2))
      · exact ⟨fun _ => le_of_lt h2, fun _ => le_of_lt h1⟩
    rw [this]
  | union L R hL hR | inter L R hL hR | diff L R hL hR =>
    intro r m t1 t2 hA h0 h12 hm hz hc
    by_cases h : L.contains (r.at t1) = L.contains (r.at t2)
    · have h' : R.contains (r.at t1) ≠ R.contains (r.at t2) := by
        intro h'
        apply hc
        simp only [Node.contains, h, h']
      obtain ⟨t, ht, hb⟩ := hR r m t1 t2 hA.2 h0 h12 hm hz.2 h'
      exact ⟨t, List.mem_append_right _ ht, hb⟩
    · obtain ⟨t, ht, hb⟩ := hL r m t1 t2 hA.1 h0 h12 hm hz.1 h
      exact ⟨t, List.mem_append_left _ ht, hb⟩
  | trans n tr h =>
    intro r m t1 t2 hA h0 h12 hm hz hc
    simp only [Node.contains, at_trans] at hc
    exact h _ m t1 t2 hA h0 h12 hm hz hc

/-! ## Consecutive pairs -/

theorem consecutive_gap {α : Type} (key : α → K) : ∀ (l : List α),
    l.Pairwise (fun a b => key a ≤ key b) → ∀ p q, (p, q) ∈ l.zip l.tail →
    ∀ z ∈ l, key z ≤ key p ∨ key q ≤ key z := by
  intro l
  induction l with
  | nil => intro _ p q h; simp at h
  | cons a l ih =>
    intro hp p q h z hz
    rw [List.pairwise_cons] at hp
    rw [List.tail_cons] at h
    cases l with
    | nil => simp at h
    | cons b l =>
      rw [List.zip_cons_cons, List.mem_cons] at h
      rcases h with h | h
      · obtain ⟨rfl, rfl⟩ := Prod.mk.injEq .. ▸ h
        rcases List.mem_cons.1 hz with rfl | hz
        · exact Or.inl le_rfl
        · rcases List.mem_cons.1 hz with rfl | hz
          · exact Or.inr le_rfl
          · exact Or.inr ((List.pairwise_cons.1 hp.2).1 z hz)
      · rcases List.mem_cons.1 hz with rfl | hz
        · exact Or.inl (hp.1 p (List.of_mem_zip h).1)
        · exact ih hp.2 p q h z hz

theorem consecutive_cover {α : Type} (key : α → K) (t : K) : ∀ (l : List α),
    l.Pairwise (fun a b => key a ≤ key b) → (∃ x ∈ l, key x < t) → (∃ y ∈ l, t < key y) →
    (∀ z ∈ l, key z ≠ t) → ∃ p q, (p, q) ∈ l.zip l.tail ∧ key p < t ∧ t < key q := by
  intro l
  induction l with
  | nil => rintro _ ⟨x, hx, _⟩; simp at hx
  | cons a l ih =>
    rintro hp ⟨x, hx, hxt⟩ ⟨y, hy, hyt⟩ hz
    rw [List.pairwise_cons] at hp
    have hat : key a < t := by
      rcases List.mem_cons.1 hx with rfl | hx
      · exact hxt
      · exact lt_of_le_of_lt (hp.1 x hx) hxt
    have hyl : y ∈ l := by
      rcases List.mem_cons.1 hy with rfl | hy
      · exact absurd hat (not_lt.2 (le_of_lt hyt))
      · exact hy
    cases l with
    | nil => simp at hyl
    | cons b l =>
      by_cases hb : key b < t
      · obtain ⟨p, q, h, h1, h2⟩ := ih hp.2 ⟨b, List.mem_cons_self, hb⟩ ⟨y, hyl, hyt⟩
          fun z hz' => hz z (List.mem_cons_of_mem _ hz')
        exact ⟨p, q, by rw [List.tail_cons, List.zip_cons_cons]; exact List.mem_cons_of_mem _ h, h1, h2⟩
      · refine ⟨a, b, by rw [List.tail_cons, List.zip_cons_cons]; exact List.mem_cons_self, hat, ?_⟩
        exact lt_of_le_of_ne (not_lt.1 hb) fun h =>
          hz b (List.mem_cons_of_mem _ List.mem_cons_self) h.symm

theorem pieces_spec (dist : Pt K → Pt K → K) (inside : Pt K → Bool) : ∀ (l : List (Pt K)), l ≠ [] →
    pieces dist inside l = some ((l.zip l.tail).filter fun pq =>
      !softZero (dist pq.1 pq.2) && inside (Pt.smul (1 / 2) (pq.1.add pq.2))) := by
  intro l
  induction l with
  | nil => intro h; exact absurd rfl h
  | cons p l ih =>
    intro _
    cases l with
    | nil => simp [pieces]
    | cons q l =>
      rw [pieces, ih (by simp), Option.map_some]
      simp only [List.tail_cons]
      rw [List.zip_cons_cons, List.filter_cons]
      congr 1
      by_cases h1 : softZero (dist p q) = true
      · simp [h1]
      · by_cases h2 : inside (Pt.smul (1 / 2) (p.add q)) = true
        · simp [h1, h2]
        · simp [h1, h2]

end Detran.Geom
