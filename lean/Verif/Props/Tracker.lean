import Verif.Model.Tracker
import Verif.Model.Angle
import Verif.Props.QuadratureSets
import Mathlib.Tactic.Linarith
import Mathlib.Tactic.FieldSimp
import Mathlib.Tactic.Ring
import Mathlib.Algebra.Order.Floor.Ring
import Mathlib.Data.Rat.Floor

/-!
# C121: tracks across a geometry
-/

namespace Detran.Tracker

open Detran.Geom

variable {K : Type} [Field K] [LinearOrder K] [IsStrictOrderedRing K] [FloorRing K]

/-! ## Specification -/

/-- The signs of the direction in each of the four octants of a plane problem. -/
def sx (o : Nat) : K := if o = 0 ∨ o = 3 then 1 else -1
def sy (o : Nat) : K := if o < 2 then 1 else -1

/-- The point is in the box `[0, X] × [0, Y]`. -/
def InBox (X Y : K) (p : Pt K) : Prop := 0 ≤ p.x ∧ p.x ≤ X ∧ 0 ≤ p.y ∧ p.y ≤ Y ∧ p.z = 0

/-- The track crosses the box in direction `(dx, dy)`, from a side where particles of this direction come in to one where
    they leave. -/
structure Crosses (X Y dx dy : K) (t : Trk K) : Prop where
  start : InBox X Y t.enter
  stop : InBox X Y t.exit
  along : ∃ l > 0, t.exit.x = t.enter.x + l * dx ∧ t.exit.y = t.enter.y + l * dy
  incoming : t.enter.x = (if 0 < dx then 0 else X) ∨ t.enter.y = (if 0 < dy then 0 else Y)
  outgoing : t.exit.x = (if 0 < dx then X else 0) ∨ t.exit.y = (if 0 < dy then Y else 0)

/-- The width of the box seen from direction `(dx, dy)`. -/
def width (X Y dx dy : K) : K := Y * |dx| + X * |dy|

/-- What the theorems assume of the spatial quadrature: points inside, weights summing to the length. -/
def GoodBase (base : Nat → K → List (K × K)) : Prop :=
  ∀ n L, 0 < n → 0 < L → (∀ p ∈ base n L, 0 ≤ p.1 ∧ p.1 < L) ∧ ((base n L).map Prod.snd).sum = L

/-! ## Where a ray leaves the box -/

omit [FloorRing K] in
theorem tiny_pos : (0 : K) < tiny := by unfold tiny; positivity

omit [FloorRing K] in
theorem planeX_hit (sq : K → K) {X c s x y : K} (hc : tiny < c) (hx : x < X) :
    (planeX X).intersections sq ⟨⟨x, y, 0⟩, ⟨c, s, 0⟩⟩ (-1) = [⟨X, y + s * ((X - x) / c), 0⟩] := by
  have h0 : (0 : K) < c := lt_trans tiny_pos hc
  have ht : 0 < (X - x) / c := div_pos (by linarith) h0
  have hab : (planeX X).abc ⟨⟨x, y, 0⟩, ⟨c, s, 0⟩⟩ = (0, 2 * c, 2 * x - 2 * X) := by
    simp [Quad.abc, Quad.mul, Quad.m, planeX, dot4, List.range_succ]
    constructor <;> ring
  have hr : (planeX X).roots sq ⟨⟨x, y, 0⟩, ⟨c, s, 0⟩⟩ = ((X - x) / c, 0) := by
    unfold Quad.roots
    rw [hab]
    dsimp only
    rw [if_pos (by rw [abs_zero]; exact tiny_pos), if_pos (by rw [abs_of_pos (by linarith)]; linarith)]
    congr 1
    field_simp
    ring
  unfold Quad.intersections Quad.hits
  rw [hr]
  dsimp only
  rw [if_pos ht.le, if_neg (not_lt.mpr ht.le), List.filter_cons_of_neg (by simp), List.filter_cons_of_pos (by simp [ht]), List.filter_nil]
  simp only [List.map_cons, List.map_nil, Ray.at, Pt.add, Pt.smul, List.cons.injEq, and_true, Pt.mk.injEq]
  field_simp
  simp

omit [FloorRing K] in
theorem planeY_hit (sq : K → K) {Y c s x y : K} (hs : tiny < s) (hy : y < Y) :
    (planeY Y).intersections sq ⟨⟨x, y, 0⟩, ⟨c, s, 0⟩⟩ (-1) = [⟨x + c * ((Y - y) / s), Y, 0⟩] := by
  have h0 : (0 : K) < s := lt_trans tiny_pos hs
  have ht : 0 < (Y - y) / s := div_pos (by linarith) h0
  have hab : (planeY Y).abc ⟨⟨x, y, 0⟩, ⟨c, s, 0⟩⟩ = (0, 2 * s, 2 * y - 2 * Y) := by
    simp [Quad.abc, Quad.mul, Quad.m, planeY, dot4, List.range_succ]
    constructor <;> ring
  have hr : (planeY Y).roots sq ⟨⟨x, y, 0⟩, ⟨c, s, 0⟩⟩ = ((Y - y) / s, 0) := by
    unfold Quad.roots
    rw [hab]
    dsimp only
    rw [if_pos (by rw [abs_zero]; exact tiny_pos), if_pos (by rw [abs_of_pos (by linarith)]; linarith)]
    congr 1
    field_simp
    ring
  unfold Quad.intersections Quad.hits
  rw [hr]
  dsimp only
  rw [if_pos ht.le, if_neg (not_lt.mpr ht.le), List.filter_cons_of_neg (by simp), List.filter_cons_of_pos (by simp [ht]), List.filter_nil]
  simp only [List.map_cons, List.map_nil, Ray.at, Pt.add, Pt.smul, List.cons.injEq, and_true, Pt.mk.injEq]
  field_simp
  simp

omit [FloorRing K] in
/-- The exit is where the ray meets the nearer of the right and the upper side. -/
theorem findExit_spec (sq : K → K) {X Y Z c s x y : K} (hc : tiny < c) (hs : tiny < s) (hx0 : 0 ≤ x) (hx : x < X) (hy0 : 0 ≤ y) (hy : y < Y) :
    ∃ p, findExit sq X Y Z ⟨x, y, 0⟩ ⟨c, s, 0⟩ = some p ∧ InBox X Y p ∧
      (∃ l > 0, p.x = x + l * c ∧ p.y = y + l * s) ∧ (p.x = X ∨ p.y = Y) := by
  have c0 : (0 : K) < c := lt_trans tiny_pos hc
  have s0 : (0 : K) < s := lt_trans tiny_pos hs
  have hl : 0 < (X - x) / c := div_pos (by linarith) c0
  have hm : 0 < (Y - y) / s := div_pos (by linarith) s0
  have e1 : c * ((X - x) / c) = X - x := by field_simp
  have e2 : s * ((Y - y) / s) = Y - y := by field_simp
  unfold findExit
  rw [planeX_hit sq hc hx, planeY_hit sq hs hy]
  dsimp only
  rw [if_neg (by simp)]
  generalize (X - x) / c = l at *
  generalize (Y - y) / s = m at *
  have d1 : dist2 (⟨x + c * m, Y, 0⟩ : Pt K) ⟨x, y, 0⟩ = m * m * (c * c + s * s) := by
    simp only [dist2]
    have : Y = y + s * m := by linarith
    subst this; ring
  have d2 : dist2 (⟨X, y + s * l, 0⟩ : Pt K) ⟨x, y, 0⟩ = l * l * (c * c + s * s) := by
    simp only [dist2]
    have : X = x + c * l := by linarith
    subst this; ring
  have hcs : 0 < c * c + s * s := by positivity
  by_cases h : dist2 (⟨x + c * m, Y, 0⟩ : Pt K) ⟨x, y, 0⟩ < dist2 ⟨X, y + s * l, 0⟩ ⟨x, y, 0⟩
  · rw [if_pos h]
    rw [d1, d2] at h
    have hml : m < l := by
      have : m * m < l * l := lt_of_mul_lt_mul_right h hcs.le
      nlinarith
    have : c * m < c * l := mul_lt_mul_of_pos_left hml c0
    have hcm : 0 < c * m := mul_pos c0 hm
    exact ⟨_, rfl, ⟨by dsimp only; linarith, by dsimp only; linarith, by dsimp only; linarith, le_refl _, rfl⟩,
      ⟨m, hm, by dsimp only; ring, by dsimp only; linarith⟩, Or.inr rfl⟩
  · rw [if_neg h]
    rw [d1, d2, not_lt] at h
    have hlm : l ≤ m := by
      have h' : l * l ≤ m * m := le_of_mul_le_mul_right h hcs
      nlinarith
    have : s * l ≤ s * m := mul_le_mul_of_nonneg_left hlm s0.le
    have hsl : 0 < s * l := mul_pos s0 hl
    exact ⟨_, rfl, ⟨by dsimp only; linarith, le_refl _, by dsimp only; linarith, by dsimp only; linarith, rfl⟩,
      ⟨l, hl, by dsimp only; linarith, by dsimp only; ring⟩, Or.inl rfl⟩

/-! ## The tracks of the first octant -/

/-- What the first octant holds for one azimuth. -/
def First (T : Tracker K) (g : Geo K) (c s : K) (ts : List (Trk K)) : Prop :=
  ts.map (fun t => (t.enter, t.w)) = T.entries g.X g.Y c s ∧ ∀ t ∈ ts, t.rev = false ∧ Crosses g.X g.Y c s t

omit [FloorRing K] in
theorem build_spec (sq : K → K) (g : Geo K) {c s : K} (hc : tiny < c) (hs : tiny < s) : ∀ (es : List (Pt K × K)) (next : Nat),
    (∀ e ∈ es, 0 ≤ e.1.x ∧ e.1.x < g.X ∧ 0 ≤ e.1.y ∧ e.1.y < g.Y ∧ e.1.z = 0 ∧ (e.1.x = 0 ∨ e.1.y = 0)) →
    ∃ ts, build sq g ⟨c, s, 0⟩ next es = some ts ∧ ts.map (fun t => (t.enter, t.w)) = es ∧
      ts.map Trk.store = List.range' next es.length ∧ ∀ t ∈ ts, t.rev = false ∧ Crosses g.X g.Y c s t
  | [], next, _ => ⟨[], rfl, rfl, rfl, by simp⟩
  | e :: es, next, h => by
    obtain ⟨h1, h2, h3, h4, h5, h6⟩ := h e (by simp)
    obtain ⟨⟨x, y, z⟩, w⟩ := e
    dsimp only at h1 h2 h3 h4 h5 h6
    subst h5
    obtain ⟨p, hp, hb, hl, ho⟩ := findExit_spec sq (Z := g.Z) hc hs h1 h2 h3 h4
    obtain ⟨ts, t1, t2, t3, t4⟩ := build_spec sq g hc hs es (next + 1) fun e he => h e (by simp [he])
    have c0 : (0 : K) < c := lt_trans tiny_pos hc
    have s0 : (0 : K) < s := lt_trans tiny_pos hs
    refine ⟨⟨⟨x, y, 0⟩, p, w, false, next⟩ :: ts, by simp only [build, hp, t1, Option.bind_some, Option.map_some], ?_, ?_, ?_⟩
    · rw [List.map_cons, t2]; rfl
    · rw [List.map_cons, t3, List.length_cons, List.range'_succ]
    · intro t ht
      rcases List.mem_cons.mp ht with rfl | ht
      · exact ⟨rfl, ⟨h1, h2.le, h3, h4.le, rfl⟩, hb, hl, by rw [if_pos c0, if_pos s0]; exact h6, by rw [if_pos c0, if_pos s0]; exact ho⟩
      · exact t4 t ht

theorem number_pos (T : Tracker K) {L f : K} (hd : 0 < T.delta) (hL : 0 < L) (hf : 0 < f) : 0 < T.number L f := by
  have : 0 < ⌈L / (T.delta / f)⌉ := Int.ceil_pos.mpr (div_pos hL (div_pos hd hf))
  unfold Tracker.number
  omega

/-- The tracker makes sense: two dimensions, positive spacing, directions inside the quadrant. -/
structure Good (T : Tracker K) : Prop where
  dim : T.dim = 2
  delta : 0 < T.delta
  np : 0 < T.np
  azi : ∀ a ∈ T.azi, tiny < a.1 ∧ tiny < a.2
  base : GoodBase T.base

theorem entries_ok {T : Tracker K} (hT : Good T) {X Y c s : K} (hX : 0 < X) (hY : 0 < Y) (hc : tiny < c) (hs : tiny < s) :
    ∀ e ∈ T.entries X Y c s, 0 ≤ e.1.x ∧ e.1.x < X ∧ 0 ≤ e.1.y ∧ e.1.y < Y ∧ e.1.z = 0 ∧ (e.1.x = 0 ∨ e.1.y = 0) := by
  have c0 : (0 : K) < c := lt_trans tiny_pos hc
  have s0 : (0 : K) < s := lt_trans tiny_pos hs
  intro e he
  unfold Tracker.entries at he
  rcases List.mem_append.mp he with he | he
  · obtain ⟨p, hp, rfl⟩ := List.mem_map.mp he
    have := (hT.base _ _ (number_pos T hT.delta hY s0) hY).1 p hp
    exact ⟨le_refl _, hX, this.1, this.2, rfl, Or.inl rfl⟩
  · obtain ⟨p, hp, rfl⟩ := List.mem_map.mp he
    have := (hT.base _ _ (number_pos T hT.delta hX c0) hX).1 p hp
    exact ⟨this.1, this.2, le_refl _, hY, rfl, Or.inr rfl⟩

theorem mul_ne {np i j : Nat} (h : 0 < np) (hij : i ≠ j) : i * np ≠ j * np :=
  fun e => hij (Nat.eq_of_mul_eq_mul_right h e)

/-- The loop over the azimuths. -/
theorem quadrant_spec (sq : K → K) {T : Tracker K} (hT : Good T) (g : Geo K) (hX : 0 < g.X) (hY : 0 < g.Y) :
    ∀ (l : List (K × K)) (i : Nat) (st : St K), (∀ a ∈ l, tiny < a.1 ∧ tiny < a.2) →
    ∃ st', T.quadrant sq g l i st = some st' ∧ st'.segs = st.segs ∧
      (∀ j a, l[j]? = some a → ∃ ts, st'.tracks 0 ((i + j) * T.np) = some ts ∧ First T g a.1 a.2 ts) ∧
      (∀ o a, (o ≠ 0 ∨ ∀ j < l.length, a ≠ (i + j) * T.np) → st'.tracks o a = st.tracks o a) ∧
      ∃ N, st'.next = st.next + N ∧
        ((List.range l.length).flatMap fun j => (st'.tracks 0 ((i + j) * T.np)).getD []).map Trk.store = List.range' st.next N
  | [], i, st, _ => ⟨st, rfl, rfl, by simp, by simp, 0, rfl, rfl⟩
  | (c, s) :: l, i, st, h => by
    obtain ⟨hc, hs⟩ := h (c, s) (by simp)
    obtain ⟨ts, t1, t2, t3, t4⟩ := build_spec sq g hc hs (T.entries g.X g.Y c s) st.next (entries_ok hT hX hY hc hs)
    have hlen : ts.length = (T.entries g.X g.Y c s).length := by rw [← t2, List.length_map]
    obtain ⟨st', q1, q2, q3, q4, N, q5, q6⟩ := quadrant_spec sq hT g hX hY l (i + 1)
      { st with tracks := upd st.tracks 0 (i * T.np) ts, next := st.next + ts.length } fun a ha => h a (by simp [ha])
    have hi : st'.tracks 0 (i * T.np) = some ts := by
      rw [q4 0 (i * T.np) (Or.inr fun j _ => mul_ne hT.np (by omega))]
      dsimp only [upd]
      rw [if_pos ⟨rfl, rfl⟩]
    refine ⟨st', ?_, q2, ?_, ?_, ts.length + N, by rw [q5]; dsimp only; omega, ?_⟩
    · simp only [Tracker.quadrant, t1, Option.bind_some]
      exact q1
    · intro j a ha
      cases j with
      | zero =>
        simp only [List.getElem?_cons_zero, Option.some.injEq] at ha
        subst ha
        exact ⟨ts, hi, t2, t4⟩
      | succ j =>
        rw [List.getElem?_cons_succ] at ha
        obtain ⟨us, u1, u2⟩ := q3 j a ha
        exact ⟨us, by rw [← u1, show i + (j + 1) = i + 1 + j by omega], u2⟩
    · intro o a hoa
      rw [q4 o a (hoa.imp id fun hh j hj => by
        have := hh (j + 1) (by simpa using hj)
        rwa [show i + (j + 1) = i + 1 + j by omega] at this)]
      dsimp only [upd]
      rw [if_neg]
      rintro ⟨e1, e2⟩
      rcases hoa with hoa | hoa
      · exact hoa e1
      · exact hoa 0 (by simp) (by simpa using e2)
    · rw [List.length_cons, List.range_succ_eq_map, List.flatMap_cons, List.map_append, Nat.add_zero, hi, Option.getD_some, t3,
        List.flatMap_map]
      dsimp only at q6
      rw [show (fun j => (st'.tracks 0 ((i + Nat.succ j) * T.np)).getD []) = fun j => (st'.tracks 0 ((i + 1 + j) * T.np)).getD [] from
        funext fun j => by rw [Nat.succ_eq_add_one, show i + (j + 1) = i + 1 + j by omega], q6, hlen]
      exact List.range'_append_1 ..

/-! ## Mirror images and reversed tracks -/

omit [IsStrictOrderedRing K] [FloorRing K] [LinearOrder K] in
theorem mirror_store (X : K) : ∀ (ts : List (Trk K)) (next : Nat), (mirror X next ts).map Trk.store = List.range' next ts.length ∧
    (mirror X next ts).length = ts.length
  | [], _ => ⟨rfl, rfl⟩
  | t :: ts, next => by
    obtain ⟨h1, h2⟩ := mirror_store X ts (next + 1)
    refine ⟨?_, by simp only [mirror, List.length_cons, h2]⟩
    rw [mirror, List.map_cons, h1, List.length_cons, List.range'_succ]

omit [IsStrictOrderedRing K] [FloorRing K] [LinearOrder K] in
theorem mirror_mem (X : K) : ∀ (ts : List (Trk K)) (next : Nat), ∀ t' ∈ mirror X next ts, ∃ t ∈ ts, t'.rev = false ∧ t'.w = t.w ∧
    t'.enter = ⟨X - t.enter.x, t.enter.y, 0⟩ ∧ t'.exit = ⟨X - t.exit.x, t.exit.y, 0⟩
  | [], _, t', h => by simp [mirror] at h
  | t :: ts, next, t', h => by
    rw [mirror] at h
    rcases List.mem_cons.mp h with rfl | h
    · exact ⟨t, by simp, rfl, rfl, rfl, rfl⟩
    · obtain ⟨u, hu, r⟩ := mirror_mem X ts (next + 1) t' h
      exact ⟨u, by simp [hu], r⟩

omit [IsStrictOrderedRing K] [FloorRing K] [LinearOrder K] in
theorem mirror_w (X : K) : ∀ (ts : List (Trk K)) (next : Nat), (mirror X next ts).map Trk.w = ts.map Trk.w
  | [], _ => rfl
  | t :: ts, next => by rw [mirror, List.map_cons, List.map_cons, mirror_w X ts]

omit [FloorRing K] in
theorem crosses_mirror {X Y c s : K} (hc : 0 < c) {t t' : Trk K} (h : Crosses X Y c s t) (h1 : t'.enter = ⟨X - t.enter.x, t.enter.y, 0⟩)
    (h2 : t'.exit = ⟨X - t.exit.x, t.exit.y, 0⟩) : Crosses X Y (-c) s t' := by
  obtain ⟨a1, a2, a3, a4, _⟩ := h.start
  obtain ⟨b1, b2, b3, b4, _⟩ := h.stop
  obtain ⟨l, hl, e1, e2⟩ := h.along
  have hin := h.incoming
  have hout := h.outgoing
  rw [if_pos hc] at hin hout
  refine ⟨?_, ?_, ⟨l, hl, ?_, ?_⟩, ?_, ?_⟩
  · rw [h1]; exact ⟨by dsimp only; linarith, by dsimp only; linarith, a3, a4, rfl⟩
  · rw [h2]; exact ⟨by dsimp only; linarith, by dsimp only; linarith, b3, b4, rfl⟩
  · rw [h1, h2]; dsimp only; rw [e1]; ring
  · rw [h1, h2]; exact e2
  · rw [h1, if_neg (by linarith)]
    exact hin.imp (fun e => by dsimp only; rw [e]; ring) id
  · rw [h2, if_neg (by linarith)]
    exact hout.imp (fun e => by dsimp only; rw [e]; ring) id

omit [FloorRing K] in
theorem crosses_reverse {X Y dx dy : K} (hdx : dx ≠ 0) (hdy : dy ≠ 0) {t : Trk K} (h : Crosses X Y dx dy t) :
    Crosses X Y (-dx) (-dy) t.reverse := by
  have e1 : t.reverse.enter = t.exit := rfl
  have e2 : t.reverse.exit = t.enter := rfl
  obtain ⟨l, hl, l1, l2⟩ := h.along
  have sw : ∀ {d A : K}, d ≠ 0 → (if 0 < -d then 0 else A) = if 0 < d then A else 0 := by
    intro d A hd
    rcases lt_or_gt_of_ne hd with hd | hd
    · rw [if_pos (by linarith), if_neg (by linarith)]
    · rw [if_neg (by linarith), if_pos hd]
  have sw' : ∀ {d A : K}, d ≠ 0 → (if 0 < -d then A else 0) = if 0 < d then 0 else A := by
    intro d A hd
    rcases lt_or_gt_of_ne hd with hd | hd
    · rw [if_pos (by linarith), if_neg (by linarith)]
    · rw [if_neg (by linarith), if_pos hd]
  refine ⟨e1 ▸ h.stop, e2 ▸ h.start, ⟨l, hl, ?_, ?_⟩, ?_, ?_⟩
  · rw [e1, e2, l1]; ring
  · rw [e1, e2, l2]; ring
  · rw [e1, sw hdx, sw hdy]; exact h.outgoing
  · rw [e2, sw' hdx, sw' hdy]; exact h.incoming

omit [IsStrictOrderedRing K] [FloorRing K] [LinearOrder K] in
theorem mirrors_append (X : K) (tr : Nat → Nat → Option (List (Trk K))) : ∀ (k1 k2 : List (Nat × Nat)) r,
    mirrors X tr (k1 ++ k2) r = mirrors X tr k2 (mirrors X tr k1 r)
  | [], k2, r => rfl
  | k :: k1, k2, r => by
    simp only [List.cons_append, mirrors]
    cases tr k.1 k.2 with
    | none => exact mirrors_append X tr k1 k2 r
    | some ts => exact mirrors_append X tr k1 k2 _

omit [IsStrictOrderedRing K] [FloorRing K] [LinearOrder K] in
theorem mirrors_none (X : K) (tr : Nat → Nat → Option (List (Trk K))) : ∀ (ks : List (Nat × Nat)) r, (∀ k ∈ ks, tr k.1 k.2 = none) →
    mirrors X tr ks r = r
  | [], r, _ => rfl
  | k :: ks, r, h => by
    rw [mirrors, h k (by simp)]
    exact mirrors_none X tr ks r fun k hk => h k (by simp [hk])

omit [IsStrictOrderedRing K] [FloorRing K] [LinearOrder K] in
/-- The block of one octant. -/
theorem mirrors_block (X : K) (tr : Nat → Nat → Option (List (Trk K))) {np : Nat} (hnp : 0 < np) (o : Nat) : ∀ (n i : Nat)
    (r : (Nat → Nat → Option (List (Trk K))) × Nat), (∀ j < n, ∃ ts, tr o ((i + j) * np) = some ts) →
    ∃ r', mirrors X tr ((List.range n).map fun j => (o, (i + j) * np)) r = r' ∧
      (∀ j < n, ∀ ts, tr o ((i + j) * np) = some ts → ∃ next, r'.1 1 ((i + j) * np) = some (mirror X next ts)) ∧
      (∀ o' a, (o' ≠ 1 ∨ ∀ j < n, a ≠ (i + j) * np) → r'.1 o' a = r.1 o' a) ∧
      ∃ N, r'.2 = r.2 + N ∧ ((List.range n).flatMap fun j => (r'.1 1 ((i + j) * np)).getD []).map Trk.store = List.range' r.2 N
  | 0, i, r, _ => ⟨r, rfl, by simp, by simp, 0, rfl, rfl⟩
  | n + 1, i, r, h => by
    obtain ⟨ts, hts⟩ := h 0 (by omega)
    rw [Nat.add_zero] at hts
    obtain ⟨r', q1, q2, q3, N, q4, q5⟩ := mirrors_block X tr hnp o n (i + 1) (upd r.1 1 (i * np) (mirror X r.2 ts), r.2 + ts.length)
      fun j hj => by have := h (j + 1) (by omega); rwa [show i + (j + 1) = i + 1 + j by omega] at this
    have hi : r'.1 1 (i * np) = some (mirror X r.2 ts) := by
      rw [q3 1 (i * np) (Or.inr fun j _ => mul_ne hnp (by omega))]
      dsimp only [upd]
      rw [if_pos ⟨rfl, rfl⟩]
    refine ⟨r', ?_, ?_, ?_, ts.length + N, by rw [q4]; dsimp only; omega, ?_⟩
    · rw [List.range_succ_eq_map, List.map_cons, List.map_map, mirrors]
      dsimp only
      rw [Nat.add_zero, hts]
      dsimp only
      rw [show ((fun j => (o, (i + j) * np)) ∘ Nat.succ) = fun j => (o, (i + 1 + j) * np) from
        funext fun j => by simp only [Function.comp, Nat.succ_eq_add_one]; rw [show i + (j + 1) = i + 1 + j by omega], q1]
    · intro j hj us hus
      cases j with
      | zero =>
        rw [Nat.add_zero] at hus ⊢
        rw [hts, Option.some.injEq] at hus
        subst hus
        exact ⟨_, hi⟩
      | succ j =>
        rw [show i + (j + 1) = i + 1 + j by omega] at hus ⊢
        exact q2 j (by omega) us hus
    · intro o' a ha
      rw [q3 o' a (ha.imp id fun hh j hj => by
        have := hh (j + 1) (by omega)
        rwa [show i + (j + 1) = i + 1 + j by omega] at this)]
      dsimp only [upd]
      rw [if_neg]
      rintro ⟨e1, e2⟩
      rcases ha with ha | ha
      · exact ha e1
      · exact ha 0 (by omega) (by simpa using e2)
    · rw [List.range_succ_eq_map, List.flatMap_cons, List.map_append, Nat.add_zero, hi, Option.getD_some, (mirror_store X ts r.2).1,
        List.flatMap_map]
      dsimp only at q5
      rw [show (fun j => (r'.1 1 ((i + Nat.succ j) * np)).getD []) = fun j => (r'.1 1 ((i + 1 + j) * np)).getD [] from
        funext fun j => by rw [Nat.succ_eq_add_one, show i + (j + 1) = i + 1 + j by omega], q5]
      exact List.range'_append_1 ..

omit [IsStrictOrderedRing K] [FloorRing K] [LinearOrder K] [Field K] in
theorem reverses_append (tr : Nat → Nat → Option (List (Trk K))) : ∀ (k1 k2 : List (Nat × Nat)) r,
    reverses tr (k1 ++ k2) r = reverses tr k2 (reverses tr k1 r)
  | [], k2, r => rfl
  | k :: k1, k2, r => by
    simp only [List.cons_append, reverses]
    cases tr k.1 k.2 with
    | none => exact reverses_append tr k1 k2 r
    | some ts => exact reverses_append tr k1 k2 _

omit [IsStrictOrderedRing K] [FloorRing K] [LinearOrder K] [Field K] in
theorem reverses_none (tr : Nat → Nat → Option (List (Trk K))) : ∀ (ks : List (Nat × Nat)) r, (∀ k ∈ ks, tr k.1 k.2 = none) →
    reverses tr ks r = r
  | [], r, _ => rfl
  | k :: ks, r, h => by
    rw [reverses, h k (by simp)]
    exact reverses_none tr ks r fun k hk => h k (by simp [hk])

omit [IsStrictOrderedRing K] [FloorRing K] [LinearOrder K] [Field K] in
theorem reverses_block (tr : Nat → Nat → Option (List (Trk K))) {np : Nat} (hnp : 0 < np) (o : Nat) : ∀ (n i : Nat) r,
    (∀ j < n, ∃ ts, tr o ((i + j) * np) = some ts) →
    ∃ r', reverses tr ((List.range n).map fun j => (o, (i + j) * np)) r = r' ∧
      (∀ j < n, ∀ ts, tr o ((i + j) * np) = some ts → r' (if o = 1 then 3 else 2) ((i + j) * np) = some (ts.map Trk.reverse)) ∧
      ∀ o' a, (o' ≠ (if o = 1 then 3 else 2) ∨ ∀ j < n, a ≠ (i + j) * np) → r' o' a = r o' a
  | 0, i, r, _ => ⟨r, rfl, by simp, by simp⟩
  | n + 1, i, r, h => by
    obtain ⟨ts, hts⟩ := h 0 (by omega)
    rw [Nat.add_zero] at hts
    obtain ⟨r', q1, q2, q3⟩ := reverses_block tr hnp o n (i + 1) (upd r (if o = 1 then 3 else 2) (i * np) (ts.map Trk.reverse))
      fun j hj => by have := h (j + 1) (by omega); rwa [show i + (j + 1) = i + 1 + j by omega] at this
    have hi : r' (if o = 1 then 3 else 2) (i * np) = some (ts.map Trk.reverse) := by
      rw [q3 _ (i * np) (Or.inr fun j _ => mul_ne hnp (by omega))]
      dsimp only [upd]
      rw [if_pos ⟨rfl, rfl⟩]
    refine ⟨r', ?_, ?_, ?_⟩
    · rw [List.range_succ_eq_map, List.map_cons, List.map_map, reverses]
      dsimp only
      rw [Nat.add_zero, hts]
      dsimp only
      rw [show ((fun j => (o, (i + j) * np)) ∘ Nat.succ) = fun j => (o, (i + 1 + j) * np) from
        funext fun j => by simp only [Function.comp, Nat.succ_eq_add_one]; rw [show i + (j + 1) = i + 1 + j by omega], q1]
    · intro j hj us hus
      cases j with
      | zero =>
        rw [Nat.add_zero] at hus ⊢
        rw [hts, Option.some.injEq] at hus
        subst hus
        exact hi
      | succ j =>
        rw [show i + (j + 1) = i + 1 + j by omega] at hus ⊢
        exact q2 j (by omega) us hus
    · intro o' a ha
      rw [q3 o' a (ha.imp id fun hh j hj => by
        have := hh (j + 1) (by omega)
        rwa [show i + (j + 1) = i + 1 + j by omega] at this)]
      dsimp only [upd]
      rw [if_neg]
      rintro ⟨e1, e2⟩
      rcases ha with ha | ha
      · exact ha e1
      · exact ha 0 (by omega) (by simpa using e2)

/-! ## The whole set of tracks -/

/-- All tracks of one octant. -/
def St.octant (T : Tracker K) (st : St K) (o : Nat) : List (Trk K) :=
  (List.range T.azi.length).flatMap fun i => (st.tracks o (i * T.np)).getD []

omit [IsStrictOrderedRing K] [LinearOrder K] [Field K] [FloorRing K] in
theorem keys_eq (T : Tracker K) : T.keys =
    ((List.range T.azi.length).map fun i => (0, i * T.np)) ++ (((List.range T.azi.length).map fun i => (1, i * T.np)) ++
      (((List.range T.azi.length).map fun i => (2, i * T.np)) ++ (List.range T.azi.length).map fun i => (3, i * T.np))) := by
  rw [Tracker.keys, show List.range 4 = [0, 1, 2, 3] from rfl]
  simp only [List.flatMap_cons, List.flatMap_nil, List.append_nil]

omit [IsStrictOrderedRing K] [LinearOrder K] [Field K] [FloorRing K] in
theorem all_eq (T : Tracker K) (st : St K) : st.all T = st.octant T 0 ++ (st.octant T 1 ++ (st.octant T 2 ++ st.octant T 3)) := by
  rw [St.all, keys_eq]
  simp only [List.flatMap_append, List.flatMap_map]
  rfl

omit [IsStrictOrderedRing K] [LinearOrder K] [Field K] [FloorRing K] in
theorem mem_octant {T : Tracker K} {st : St K} {o : Nat} {t : Trk K} (h : t ∈ st.octant T o) :
    ∃ i a ts, T.azi[i]? = some a ∧ st.tracks o (i * T.np) = some ts ∧ t ∈ ts := by
  obtain ⟨i, hi, ht⟩ := List.mem_flatMap.mp h
  have hi' := List.mem_range.mp hi
  rcases hts : st.tracks o (i * T.np) with _ | ts
  · rw [hts] at ht; simp at ht
  · rw [hts, Option.getD_some] at ht
    exact ⟨i, T.azi[i], ts, List.getElem?_eq_getElem hi', hts, ht⟩

omit [IsStrictOrderedRing K] [LinearOrder K] [Field K] [FloorRing K] in
theorem octant_mem {T : Tracker K} {st : St K} {o i : Nat} {a : K × K} {ts : List (Trk K)} {t : Trk K} (hi : T.azi[i]? = some a)
    (hts : st.tracks o (i * T.np) = some ts) (ht : t ∈ ts) : t ∈ st.octant T o := by
  obtain ⟨hi', _⟩ := List.getElem?_eq_some_iff.mp hi
  exact List.mem_flatMap.mpr ⟨i, List.mem_range.mpr hi', by rw [hts]; exact ht⟩

/-- The tracks made on a tracker without tracks. -/
structure Made (T : Tracker K) (g : Geo K) (n0 : Nat) (st : St K) : Prop where
  tracks : ∀ (i : Nat) (a : K × K), T.azi[i]? = some a → ∃ ts n1, First T g a.1 a.2 ts ∧ st.tracks 0 (i * T.np) = some ts ∧
    st.tracks 1 (i * T.np) = some (mirror g.X n1 ts) ∧ st.tracks 2 (i * T.np) = some (ts.map Trk.reverse) ∧
    st.tracks 3 (i * T.np) = some ((mirror g.X n1 ts).map Trk.reverse)
  stores : ∃ N, st.next = n0 + N ∧ (st.octant T 0 ++ st.octant T 1).map Trk.store = List.range' n0 N

theorem generate_fresh (sq : K → K) {T : Tracker K} (hT : Good T) (g : Geo K) (hX : 0 < g.X) (hY : 0 < g.Y) (st : St K)
    (hst : ∀ o a, st.tracks o a = none) :
    ∃ st', T.generate sq g st = some st' ∧ st'.segs = st.segs ∧ Made T g st.next st' := by
  obtain ⟨s1, q1, q2, q3, q4, N, q5, q6⟩ := quadrant_spec sq hT g hX hY T.azi 0 st hT.azi
  simp only [Nat.zero_add] at q3 q4 q6
  have h0 : ∀ j < T.azi.length, ∃ ts, s1.tracks 0 ((0 + j) * T.np) = some ts := fun j hj => by
    rw [Nat.zero_add]
    obtain ⟨ts, h, _⟩ := q3 j T.azi[j] (List.getElem?_eq_getElem hj)
    exact ⟨ts, h⟩
  have hn : ∀ o a, o ≠ 0 → s1.tracks o a = none := fun o a ho => by rw [q4 o a (Or.inl ho), hst]
  obtain ⟨m, m1, m2, m3, M, m4, m5⟩ := mirrors_block g.X s1.tracks hT.np 0 T.azi.length 0 (fun _ _ => none, s1.next) h0
  simp only [Nat.zero_add] at m1 m2 m3 m5
  have hm : mirrors g.X s1.tracks T.keys (fun _ _ => none, s1.next) = m := by
    rw [keys_eq, mirrors_append, m1]
    apply mirrors_none
    intro k hk
    apply hn
    simp only [List.mem_append, List.mem_map, List.mem_range] at hk
    rcases hk with ⟨i, _, rfl⟩ | ⟨i, _, rfl⟩ | ⟨i, _, rfl⟩ <;> simp
  have t0 : ∀ a, insert s1.tracks m.1 0 a = s1.tracks 0 a := fun a => by
    unfold insert
    rw [m3 0 a (Or.inl (by simp))]
    cases s1.tracks 0 a <;> rfl
  have t1 : ∀ a, insert s1.tracks m.1 1 a = m.1 1 a := fun a => by
    unfold insert
    rw [hn 1 a (by simp)]; rfl
  have t2 : ∀ o a, 2 ≤ o → insert s1.tracks m.1 o a = none := fun o a ho => by
    unfold insert
    rw [hn o a (by omega), m3 o a (Or.inl (by omega))]; rfl
  obtain ⟨tr, htr⟩ : ∃ tr, tr = insert s1.tracks m.1 := ⟨_, rfl⟩
  rw [← htr] at t0 t1 t2
  obtain ⟨r, r1, r2, r3⟩ := reverses_block tr hT.np 0 T.azi.length 0 (fun _ _ => none) fun j hj => by
    obtain ⟨ts, h⟩ := h0 j hj
    exact ⟨ts, by rw [t0, h]⟩
  obtain ⟨r', r1', r2', r3'⟩ := reverses_block tr hT.np 1 T.azi.length 0 r fun j hj => by
    obtain ⟨ts, h⟩ := h0 j hj
    rw [Nat.zero_add] at h ⊢
    obtain ⟨n1, h1⟩ := m2 j hj ts h
    exact ⟨_, by rw [t1, h1]⟩
  simp only [Nat.zero_add, if_true, show ¬ (0 = 1) from by omega, if_false] at r1 r2 r3 r1' r2' r3'
  have hr : reverses tr T.keys (fun _ _ => none) = r' := by
    rw [keys_eq, reverses_append, r1, reverses_append, r1']
    apply reverses_none
    intro k hk
    apply t2
    simp only [List.mem_append, List.mem_map, List.mem_range] at hk
    rcases hk with ⟨i, _, rfl⟩ | ⟨i, _, rfl⟩ <;> simp
  have u0 : ∀ a, insert tr r' 0 a = s1.tracks 0 a := fun a => by
    unfold insert
    rw [r3' 0 a (Or.inl (by simp)), r3 0 a (Or.inl (by simp)), t0]
    cases s1.tracks 0 a <;> rfl
  have u1 : ∀ a, insert tr r' 1 a = m.1 1 a := fun a => by
    unfold insert
    rw [r3' 1 a (Or.inl (by simp)), r3 1 a (Or.inl (by simp)), t1]
    cases m.1 1 a <;> rfl
  have u2 : ∀ o a, 2 ≤ o → insert tr r' o a = r' o a := fun o a ho => by
    unfold insert
    rw [t2 o a ho]; rfl
  refine ⟨{ s1 with tracks := insert tr r', next := m.2 }, ?_, q2, ?_, N + M, ?_, ?_⟩
  · unfold Tracker.generate
    rw [q1, Option.map_some]
    dsimp only
    rw [hm, ← htr, hr]
  · intro i a ha
    obtain ⟨hi, _⟩ := List.getElem?_eq_some_iff.mp ha
    obtain ⟨ts, h1, h2⟩ := q3 i a ha
    obtain ⟨n1, h3⟩ := m2 i hi ts h1
    refine ⟨ts, n1, h2, ?_, ?_, ?_, ?_⟩
    · show insert tr r' 0 _ = _
      rw [u0, h1]
    · show insert tr r' 1 _ = _
      rw [u1, h3]
    · show insert tr r' 2 _ = _
      rw [u2 2 _ (by omega), r3' 2 _ (Or.inl (by simp)), r2 i hi ts (by rw [t0, h1])]
    · show insert tr r' 3 _ = _
      rw [u2 3 _ (by omega), r2' i hi _ (by rw [t1, h3])]
  · show m.2 = _
    rw [m4]; dsimp only; omega
  · have e0 : St.octant T { s1 with tracks := insert tr r', next := m.2 } 0 = (List.range T.azi.length).flatMap fun j => (s1.tracks 0 (j * T.np)).getD [] := by
      unfold St.octant; simp only [u0]
    have e1 : St.octant T { s1 with tracks := insert tr r', next := m.2 } 1 = (List.range T.azi.length).flatMap fun j => (m.1 1 (j * T.np)).getD [] := by
      unfold St.octant; simp only [u1]
    rw [e0, e1, List.map_append, q6, m5, q5]
    exact List.range'_append_1 ..

/-! ## Segments -/

omit [IsStrictOrderedRing K] [LinearOrder K] [Field K] [FloorRing K] in
theorem segAll_spec (g : Geo K) : ∀ (ts : List (Trk K)) (segs segs' : Nat → List (Seg K)), segAll g ts segs = some segs' →
    (∀ t ∈ ts, t.rev = false → (g.seg t.enter t.exit).isSome) ∧
    ∀ j, segs' j = segs j ++ (ts.filter fun t => !t.rev && t.store == j).flatMap fun t => (g.seg t.enter t.exit).getD []
  | [], segs, segs', h => by
    simp only [segAll, Option.some.injEq] at h
    subst h
    simp
  | t :: ts, segs, segs', h => by
    rw [segAll] at h
    obtain ⟨s1, h1, h2⟩ := Option.bind_eq_some_iff.mp h
    obtain ⟨a, b⟩ := segAll_spec g ts s1 segs' h2
    unfold segTrack at h1
    by_cases hr : t.rev
    · rw [if_pos hr, Option.some.injEq] at h1
      subst h1
      refine ⟨fun u hu hur => ?_, fun j => by rw [b j, List.filter_cons_of_neg (by simp [hr])]⟩
      rcases List.mem_cons.mp hu with rfl | hu
      · rw [hr] at hur; cases hur
      · exact a u hu hur
    · rw [if_neg hr] at h1
      obtain ⟨l, hl, rfl⟩ := Option.map_eq_some_iff.mp h1
      refine ⟨fun u hu hur => ?_, fun j => ?_⟩
      · rcases List.mem_cons.mp hu with rfl | hu
        · rw [hl]; rfl
        · exact a u hu hur
      · rw [b j]
        dsimp only
        by_cases hj : j = t.store
        · rw [if_pos hj, List.filter_cons_of_pos (by simp [hr, hj]), List.flatMap_cons, hl, Option.getD_some, List.append_assoc]
        · rw [if_neg hj, List.filter_cons_of_neg (by simp; intro _ e; exact hj e.symm)]

omit [IsStrictOrderedRing K] [LinearOrder K] [Field K] [FloorRing K] in
theorem segAll_some (g : Geo K) : ∀ (ts : List (Trk K)) (segs : Nat → List (Seg K)),
    (∀ t ∈ ts, t.rev = false → (g.seg t.enter t.exit).isSome) → ∃ segs', segAll g ts segs = some segs'
  | [], segs, _ => ⟨segs, rfl⟩
  | t :: ts, segs, h => by
    have : ∃ s1, segTrack g segs t = some s1 := by
      unfold segTrack
      by_cases hr : t.rev
      · exact ⟨_, if_pos hr⟩
      · obtain ⟨l, hl⟩ := Option.isSome_iff_exists.mp (h t (by simp) (by simpa using hr))
        rw [if_neg hr, hl]
        exact ⟨_, rfl⟩
    obtain ⟨s1, h1⟩ := this
    obtain ⟨s2, h2⟩ := segAll_some g ts s1 fun u hu => h u (by simp [hu])
    exact ⟨s2, by rw [segAll, h1]; exact h2⟩

omit [IsStrictOrderedRing K] [LinearOrder K] [Field K] [FloorRing K] in
theorem filter_store : ∀ (ts : List (Trk K)), (ts.map Trk.store).Nodup → (∀ t ∈ ts, t.rev = false) → ∀ t ∈ ts,
    (ts.filter fun u => !u.rev && u.store == t.store) = [t]
  | [], _, _, t, h => by simp at h
  | u :: ts, hn, hr, t, h => by
    rw [List.map_cons, List.nodup_cons] at hn
    rcases List.mem_cons.mp h with rfl | h
    · rw [List.filter_cons_of_pos (by simp [hr t (by simp)]), List.filter_eq_nil_iff.mpr]
      intro v hv hv'
      simp only [Bool.and_eq_true, beq_iff_eq] at hv'
      exact hn.1 (hv'.2 ▸ List.mem_map_of_mem hv)
    · rw [List.filter_cons_of_neg, filter_store ts hn.2 (fun v hv => hr v (by simp [hv])) t h]
      intro hv
      simp only [Bool.and_eq_true, beq_iff_eq] at hv
      exact hn.1 (hv.2 ▸ List.mem_map_of_mem h)

omit [IsStrictOrderedRing K] [LinearOrder K] [Field K] [FloorRing K] in
theorem filter_rev (ts : List (Trk K)) (h : ∀ t ∈ ts, t.rev = true) (j : Nat) : (ts.filter fun u => !u.rev && u.store == j) = [] := by
  rw [List.filter_eq_nil_iff]
  intro t ht
  simp [h t ht]

theorem made_rev {T : Tracker K} {g : Geo K} {n0 : Nat} {st : St K} (h : Made T g n0 st) :
    (∀ t ∈ st.octant T 0 ++ st.octant T 1, t.rev = false) ∧ ∀ t ∈ st.octant T 2 ++ st.octant T 3, t.rev = true := by
  constructor
  · intro t ht
    rcases List.mem_append.mp ht with ht | ht
    · obtain ⟨i, a, ts, ha, hts, htt⟩ := mem_octant ht
      obtain ⟨us, n1, hf, h0, _⟩ := h.tracks i a ha
      rw [h0, Option.some.injEq] at hts
      subst hts
      exact (hf.2 t htt).1
    · obtain ⟨i, a, ts, ha, hts, htt⟩ := mem_octant ht
      obtain ⟨us, n1, hf, _, h1, _⟩ := h.tracks i a ha
      rw [h1, Option.some.injEq] at hts
      subst hts
      obtain ⟨u, _, hu, _⟩ := mirror_mem g.X us n1 t htt
      exact hu
  · intro t ht
    rcases List.mem_append.mp ht with ht | ht
    · obtain ⟨i, a, ts, ha, hts, htt⟩ := mem_octant ht
      obtain ⟨us, n1, _, _, _, h2, _⟩ := h.tracks i a ha
      rw [h2, Option.some.injEq] at hts
      subst hts
      obtain ⟨u, _, rfl⟩ := List.mem_map.mp htt
      rfl
    · obtain ⟨i, a, ts, ha, hts, htt⟩ := mem_octant ht
      obtain ⟨us, n1, _, _, _, _, h3⟩ := h.tracks i a ha
      rw [h3, Option.some.injEq] at hts
      subst hts
      obtain ⟨u, _, rfl⟩ := List.mem_map.mp htt
      rfl

/-- The tracks of an angle in the four octants. -/
theorem made_crosses {T : Tracker K} (hT : Good T) {g : Geo K} {n0 : Nat} {st : St K} (h : Made T g n0 st) (i : Nat) (a : K × K)
    (ha : T.azi[i]? = some a) (o : Nat) (ho : o < 4) :
    ∃ ts, st.tracks o (i * T.np) = some ts ∧ ts.map Trk.w = (T.entries g.X g.Y a.1 a.2).map Prod.snd ∧
      ∀ t ∈ ts, Crosses g.X g.Y (sx o * a.1) (sy o * a.2) t := by
  obtain ⟨ts, n1, hf, h0, h1, h2, h3⟩ := h.tracks i a ha
  have hab := hT.azi a (List.mem_of_getElem? ha)
  have c0 : (0 : K) < a.1 := lt_trans tiny_pos hab.1
  have s0 : (0 : K) < a.2 := lt_trans tiny_pos hab.2
  have hw : ts.map Trk.w = (T.entries g.X g.Y a.1 a.2).map Prod.snd := by
    rw [← hf.1, List.map_map]; rfl
  have hm : ∀ t ∈ mirror g.X n1 ts, Crosses g.X g.Y (-a.1) a.2 t := fun t ht => by
    obtain ⟨u, hu, _, _, e1, e2⟩ := mirror_mem g.X ts n1 t ht
    exact crosses_mirror c0 (hf.2 u hu).2 e1 e2
  have hrw : ∀ us : List (Trk K), (us.map Trk.reverse).map Trk.w = us.map Trk.w := fun us => by rw [List.map_map]; rfl
  match o, ho with
  | 0, _ =>
    exact ⟨ts, h0, hw, fun t ht => by simpa [sx, sy] using (hf.2 t ht).2⟩
  | 1, _ =>
    exact ⟨_, h1, by rw [mirror_w, hw], fun t ht => by simpa [sx, sy] using hm t ht⟩
  | 2, _ =>
    refine ⟨_, h2, by rw [hrw, hw], fun t ht => ?_⟩
    obtain ⟨u, hu, rfl⟩ := List.mem_map.mp ht
    have := crosses_reverse c0.ne' s0.ne' (hf.2 u hu).2
    simpa [sx, sy] using this
  | 3, _ =>
    refine ⟨_, h3, by rw [hrw, mirror_w, hw], fun t ht => ?_⟩
    obtain ⟨u, hu, rfl⟩ := List.mem_map.mp ht
    have := crosses_reverse (neg_ne_zero.mpr c0.ne') s0.ne' (hm u hu)
    simpa [sx, sy] using this

omit [IsStrictOrderedRing K] in
theorem trackit_split {sq : K → K} {T : Tracker K} {g : Geo K} {st st' : St K} (hd : T.dim = 2) (h : T.trackit sq g st = some st') :
    ∃ s1 segs, T.generate sq g st = some s1 ∧ segAll g (s1.all T) s1.segs = some segs ∧ st' = { s1 with segs := segs } := by
  unfold Tracker.trackit at h
  rw [if_pos hd] at h
  obtain ⟨s1, h1, h2⟩ := Option.bind_eq_some_iff.mp h
  obtain ⟨segs, h3, rfl⟩ := Option.map_eq_some_iff.mp h2
  exact ⟨s1, segs, h1, h3, rfl⟩

theorem trackit_made {sq : K → K} {T : Tracker K} (hT : Good T) {g : Geo K} (hX : 0 < g.X) (hY : 0 < g.Y) {st : St K}
    (h : T.trackit sq g St.init = some st) : Made T g 0 st ∧ segAll g (st.all T) (fun _ => []) = some st.segs := by
  obtain ⟨s1, segs, h1, h2, rfl⟩ := trackit_split hT.dim h
  obtain ⟨s1', h1', e, hm⟩ := generate_fresh sq hT g hX hY St.init fun _ _ => rfl
  rw [h1, Option.some.injEq] at h1'
  subst h1'
  rw [e] at h2
  exact ⟨⟨hm.tracks, hm.stores⟩, h2⟩

/-! ## C121 -/

/-- Tracking a geometry with a new tracker ends, provided the geometry can be cut along every line inside it. -/
theorem C121_defined (sq : K → K) {T : Tracker K} (hT : Good T) (g : Geo K) (hX : 0 < g.X) (hY : 0 < g.Y)
    (hg : ∀ p q, InBox g.X g.Y p → InBox g.X g.Y q → (g.seg p q).isSome) : ∃ st, T.trackit sq g St.init = some st := by
  obtain ⟨s1, h1, _, hm⟩ := generate_fresh sq hT g hX hY St.init fun _ _ => rfl
  obtain ⟨segs, h2⟩ := segAll_some g (s1.all T) s1.segs fun t ht _ => by
    rw [all_eq] at ht
    have key : ∀ o < 4, t ∈ s1.octant T o → (g.seg t.enter t.exit).isSome := fun o ho hto => by
      obtain ⟨i, a, ts, ha, hts, htt⟩ := mem_octant hto
      obtain ⟨ts', h3, _, h4⟩ := made_crosses hT hm i a ha o ho
      rw [hts, Option.some.injEq] at h3
      subst h3
      exact hg _ _ (h4 t htt).start (h4 t htt).stop
    rcases List.mem_append.mp ht with ht | ht
    · exact key 0 (by omega) ht
    rcases List.mem_append.mp ht with ht | ht
    · exact key 1 (by omega) ht
    rcases List.mem_append.mp ht with ht | ht
    · exact key 2 (by omega) ht
    · exact key 3 (by omega) ht
  exact ⟨_, by unfold Tracker.trackit; rw [if_pos hT.dim, h1, Option.bind_some, h2, Option.map_some]⟩

/-- A new tracker gives, for each azimuth and each octant, tracks that cross the box in that direction from an incoming
    to an outgoing side. -/
theorem C121_tracks (sq : K → K) {T : Tracker K} (hT : Good T) {g : Geo K} (hX : 0 < g.X) (hY : 0 < g.Y) {st : St K}
    (h : T.trackit sq g St.init = some st) (i : Nat) (a : K × K) (ha : T.azi[i]? = some a) (o : Nat) (ho : o < 4) :
    ∃ ts, st.tracks o (i * T.np) = some ts ∧ ts.length = (T.base (T.number g.Y a.2) g.Y).length + (T.base (T.number g.X a.1) g.X).length ∧
      ∀ t ∈ ts, Crosses g.X g.Y (sx o * a.1) (sy o * a.2) t := by
  obtain ⟨ts, h1, h2, h3⟩ := made_crosses hT (trackit_made hT hX hY h).1 i a ha o ho
  refine ⟨ts, h1, ?_, h3⟩
  have := congrArg List.length h2
  simpa [Tracker.entries] using this

/-- The tracks of the first octant begin at the points of the spatial quadrature on the left and the lower side. -/
theorem C121_entries (sq : K → K) {T : Tracker K} (hT : Good T) {g : Geo K} (hX : 0 < g.X) (hY : 0 < g.Y) {st : St K}
    (h : T.trackit sq g St.init = some st) (i : Nat) (a : K × K) (ha : T.azi[i]? = some a) :
    ∃ l b, st.tracks 0 (i * T.np) = some (l ++ b) ∧
      l.map Trk.enter = (T.base (T.number g.Y a.2) g.Y).map (fun p => ⟨0, p.1, 0⟩) ∧
      b.map Trk.enter = (T.base (T.number g.X a.1) g.X).map (fun p => ⟨p.1, 0, 0⟩) := by
  obtain ⟨ts, _, hf, h0, _⟩ := (trackit_made hT hX hY h).1.tracks i a ha
  have he : ts.map Trk.enter = (T.entries g.X g.Y a.1 a.2).map Prod.fst := by rw [← hf.1, List.map_map]; rfl
  rw [Tracker.entries, List.map_append] at he
  obtain ⟨l, b, rfl, h1, h2⟩ := List.map_eq_append_iff.mp he
  exact ⟨l, b, h0, by rw [h1, List.map_map]; rfl, by rw [h2, List.map_map]; rfl⟩

/-- Followed in its own direction, each track passes the segments the geometry has between its ends; for reversed tracks
    these are the segments of the opposite line in reverse order. -/
theorem C121_segments (sq : K → K) {T : Tracker K} (hT : Good T) {g : Geo K} (hX : 0 < g.X) (hY : 0 < g.Y) {st : St K}
    (h : T.trackit sq g St.init = some st) (i : Nat) (a : K × K) (ha : T.azi[i]? = some a) (o : Nat) (ho : o < 4) :
    ∃ ts, st.tracks o (i * T.np) = some ts ∧ ∀ t ∈ ts,
      if o < 2 then g.seg t.enter t.exit = some (t.path st.segs) else g.seg t.exit t.enter = some (t.path st.segs).reverse := by
  obtain ⟨hm, hs⟩ := trackit_made hT hX hY h
  obtain ⟨hr1, hr2⟩ := made_rev hm
  obtain ⟨N, _, hN⟩ := hm.stores
  obtain ⟨hsome, hspec⟩ := segAll_spec g _ _ _ hs
  have hnd : ((st.octant T 0 ++ st.octant T 1).map Trk.store).Nodup := by rw [hN]; exact List.nodup_range'
  have key : ∀ t ∈ st.octant T 0 ++ st.octant T 1, g.seg t.enter t.exit = some (st.segs t.store) := fun t ht => by
    have hin : t ∈ st.all T := by rw [all_eq, ← List.append_assoc]; exact List.mem_append_left _ ht
    obtain ⟨l, hl⟩ := Option.isSome_iff_exists.mp (hsome t hin (hr1 t ht))
    have := hspec t.store
    rw [all_eq, ← List.append_assoc, List.filter_append, filter_store _ hnd hr1 t ht, filter_rev _ hr2, List.append_nil] at this
    rw [this, hl]
    simp [hl]
  obtain ⟨ts, n1, hf, h0, h1, h2, h3⟩ := hm.tracks i a ha
  have p0 : ∀ t ∈ ts, t.rev = false ∧ g.seg t.enter t.exit = some (st.segs t.store) := fun t ht =>
    have := List.mem_append_left (st.octant T 1) (octant_mem ha h0 ht)
    ⟨hr1 t this, key t this⟩
  have p1 : ∀ t ∈ mirror g.X n1 ts, t.rev = false ∧ g.seg t.enter t.exit = some (st.segs t.store) := fun t ht =>
    have := List.mem_append_right (st.octant T 0) (octant_mem ha h1 ht)
    ⟨hr1 t this, key t this⟩
  have straight : ∀ t : Trk K, t.rev = false ∧ g.seg t.enter t.exit = some (st.segs t.store) →
      g.seg t.enter t.exit = some (t.path st.segs) := fun t ht => by
    rw [ht.2, Trk.path, if_neg (by rw [ht.1]; simp)]
  have back : ∀ t : Trk K, t.rev = false ∧ g.seg t.enter t.exit = some (st.segs t.store) →
      g.seg t.reverse.exit t.reverse.enter = some (t.reverse.path st.segs).reverse := fun t ht => by
    show g.seg t.enter t.exit = _
    rw [ht.2, show t.reverse.path st.segs = (st.segs t.store).reverse from if_pos rfl, List.reverse_reverse]
  match o, ho with
  | 0, _ => exact ⟨ts, h0, fun t ht => straight t (p0 t ht)⟩
  | 1, _ => exact ⟨_, h1, fun t ht => straight t (p1 t ht)⟩
  | 2, _ =>
    refine ⟨_, h2, fun t ht => ?_⟩
    obtain ⟨u, hu, rfl⟩ := List.mem_map.mp ht
    exact back u (p0 u hu)
  | 3, _ =>
    refine ⟨_, h3, fun t ht => ?_⟩
    obtain ⟨u, hu, rfl⟩ := List.mem_map.mp ht
    exact back u (p1 u hu)

/-- The sum of the weights of an angle: sine and cosine are the other way round than in the width of the box. -/
theorem C121_weights (sq : K → K) {T : Tracker K} (hT : Good T) {g : Geo K} (hX : 0 < g.X) (hY : 0 < g.Y) {st : St K}
    (h : T.trackit sq g St.init = some st) (i : Nat) (a : K × K) (ha : T.azi[i]? = some a) (o : Nat) (ho : o < 4) :
    ∃ ts, st.tracks o (i * T.np) = some ts ∧ (ts.map Trk.w).sum = g.Y * a.2 + g.X * a.1 := by
  obtain ⟨ts, h1, h2, _⟩ := made_crosses hT (trackit_made hT hX hY h).1 i a ha o ho
  have hab := hT.azi a (List.mem_of_getElem? ha)
  have c0 : (0 : K) < a.1 := lt_trans tiny_pos hab.1
  have s0 : (0 : K) < a.2 := lt_trans tiny_pos hab.2
  refine ⟨ts, h1, ?_⟩
  have e1 := (hT.base _ _ (number_pos T hT.delta hY s0) hY).2
  have e2 := (hT.base _ _ (number_pos T hT.delta hX c0) hX).2
  rw [h2, Tracker.entries, List.map_append, List.sum_append, List.map_map, List.map_map]
  have sm : ∀ (l : List (K × K)) (f : K), (l.map fun p => p.2 * f).sum = (l.map Prod.snd).sum * f := fun l f => by
    rw [← List.sum_map_mul_right]
  have := sm (T.base (T.number g.Y a.2) g.Y) a.2
  have := sm (T.base (T.number g.X a.1) g.X) a.1
  simp only [Function.comp_def]
  rw [sm, sm, e1, e2]

/-- C121, the claim: the weights of the tracks of a direction add up to the width of the geometry seen from it. -/
def C121Claim : Prop :=
  ∀ (sq : ℚ → ℚ) (T : Tracker ℚ) (g : Geo ℚ) (st : St ℚ), Good T → 0 < g.X → 0 < g.Y → T.trackit sq g St.init = some st →
    ∀ (i : Nat) (a : ℚ × ℚ), T.azi[i]? = some a → ∀ o < 4, ∃ ts, st.tracks o (i * T.np) = some ts ∧
      (ts.map Trk.w).sum = width g.X g.Y a.1 a.2

/-- In a square the weights of a direction add up to the width seen from it. -/
theorem C121_width_partial (sq : K → K) {T : Tracker K} (hT : Good T) {g : Geo K} (hX : 0 < g.X) (hsquare : g.X = g.Y) {st : St K}
    (h : T.trackit sq g St.init = some st) (i : Nat) (a : K × K) (ha : T.azi[i]? = some a) (o : Nat) (ho : o < 4) :
    ∃ ts, st.tracks o (i * T.np) = some ts ∧ (ts.map Trk.w).sum = width g.X g.Y a.1 a.2 := by
  obtain ⟨ts, h1, h2⟩ := C121_weights sq hT hX (hsquare ▸ hX) h i a ha o ho
  have hab := hT.azi a (List.mem_of_getElem? ha)
  refine ⟨ts, h1, ?_⟩
  rw [h2, width, abs_of_pos (lt_trans tiny_pos hab.1), abs_of_pos (lt_trans tiny_pos hab.2), hsquare]
  ring

/-- In other rectangles they do so only at 45 degrees. -/
theorem C121_width_wrong (sq : K → K) {T : Tracker K} (hT : Good T) {g : Geo K} (hX : 0 < g.X) (hY : 0 < g.Y) (hne : g.X ≠ g.Y) {st : St K}
    (h : T.trackit sq g St.init = some st) (i : Nat) (a : K × K) (ha : T.azi[i]? = some a) (ho : a.1 ≠ a.2) (ts : List (Trk K))
    (o : Nat) (ho' : o < 4) (hts : st.tracks o (i * T.np) = some ts) : (ts.map Trk.w).sum ≠ width g.X g.Y a.1 a.2 := by
  obtain ⟨ts', h1, h2⟩ := C121_weights sq hT hX hY h i a ha o ho'
  rw [hts, Option.some.injEq] at h1
  subst h1
  have hab := hT.azi a (List.mem_of_getElem? ha)
  rw [h2, width, abs_of_pos (lt_trans tiny_pos hab.1), abs_of_pos (lt_trans tiny_pos hab.2)]
  intro e
  have : (g.X - g.Y) * (a.1 - a.2) = 0 := by linear_combination e
  rcases mul_eq_zero.mp this with e | e
  · exact hne (by linarith)
  · exact ho (by linarith)

/-- The uniform quadrature, the default of a tracker. -/
def uniform (n : Nat) (L : K) : List (K × K) := (Angle.baseUniform 0 L n).1.zip (Angle.baseUniform 0 L n).2

omit [FloorRing K] in
theorem uniform_eq (n : Nat) (L : K) : uniform n L = (List.range n).map fun i : Nat => (((i : K) + 1 / 2) * (L / n), L / n) := by
  unfold uniform Angle.baseUniform
  rw [Angle.linspaceCenter_eq]
  apply List.ext_getElem
  · simp
  · intro i h1 h2; simp

omit [FloorRing K] in
/-- The uniform quadrature meets what the theorems assume. -/
theorem uniform_good : GoodBase (uniform : Nat → K → List (K × K)) := by
  intro n L hn hL
  have hn0 : (0 : K) < n := by exact_mod_cast hn
  rw [uniform_eq]
  constructor
  · intro p hp
    obtain ⟨i, hi, rfl⟩ := List.mem_map.mp hp
    have hi' : i + 1 ≤ n := List.mem_range.mp hi
    have : (i : K) + 1 ≤ n := by exact_mod_cast hi'
    have i0 : (0 : K) ≤ i := Nat.cast_nonneg i
    have hd : 0 < L / n := div_pos hL hn0
    refine ⟨by positivity, ?_⟩
    have : ((i : K) + 1 / 2) * (L / n) < n * (L / n) := mul_lt_mul_of_pos_right (by linarith) hd
    rwa [mul_div_cancel₀ _ hn0.ne'] at this
  · rw [List.map_map]
    simp only [Function.comp_def, List.map_const', List.sum_replicate, List.length_range, nsmul_eq_mul]
    rw [mul_div_cancel₀ _ hn0.ne']

/-- The distance between the lines of two tracks of direction `(dx, dy)` (of length one). -/
def apart (dx dy : K) (t u : Trk K) : K := |dx * (u.enter.y - t.enter.y) - dy * (u.enter.x - t.enter.x)|

theorem number_spacing (T : Tracker K) {L f : K} (hd : 0 < T.delta) (hL : 0 < L) (hf : 0 < f) : L / T.number L f ≤ T.delta / f := by
  have h1 : (⌈L / (T.delta / f)⌉ : K) ≤ (T.number L f : K) := by
    unfold Tracker.number
    have h0 : 0 < ⌈L / (T.delta / f)⌉ := Int.ceil_pos.mpr (div_pos hL (div_pos hd hf))
    have : ⌈L / (T.delta / f)⌉ ≤ ((max T.minimum ⌈L / (T.delta / f)⌉).toNat : ℤ) := by omega
    exact_mod_cast this
  have h2 : L / (T.delta / f) ≤ T.number L f := le_trans (Int.le_ceil _) h1
  have hn : (0 : K) < T.number L f := by exact_mod_cast number_pos T hd hL hf
  have hdf : 0 < T.delta / f := div_pos hd hf
  rw [div_le_iff₀ hdf] at h2
  rw [div_le_iff₀ hn]
  linarith

/-- How far neighbouring tracks are apart with the uniform quadrature: at most the maximum spacing times the cotangent of the
    azimuth for tracks from the left side, times the tangent for tracks from the lower side. -/
theorem C121_spacing (sq : K → K) {T : Tracker K} (hT : Good T) (hu : T.base = uniform) {g : Geo K} (hX : 0 < g.X) (hY : 0 < g.Y) {st : St K}
    (h : T.trackit sq g St.init = some st) (i : Nat) (a : K × K) (ha : T.azi[i]? = some a) :
    ∃ l b, st.tracks 0 (i * T.np) = some (l ++ b) ∧
      (∀ (j : Nat) (t u : Trk K), l[j]? = some t → l[j + 1]? = some u → apart a.1 a.2 t u ≤ T.delta * (a.1 / a.2)) ∧
      ∀ (j : Nat) (t u : Trk K), b[j]? = some t → b[j + 1]? = some u → apart a.1 a.2 t u ≤ T.delta * (a.2 / a.1) := by
  obtain ⟨l, b, h1, h2, h3⟩ := C121_entries sq hT hX hY h i a ha
  have hab := hT.azi a (List.mem_of_getElem? ha)
  have c0 : (0 : K) < a.1 := lt_trans tiny_pos hab.1
  have s0 : (0 : K) < a.2 := lt_trans tiny_pos hab.2
  have pts : ∀ (us : List (Trk K)) (n : Nat) (L : K) (f : K → Pt K), us.map Trk.enter = (uniform n L).map (fun p => f p.1) →
      ∀ (j : Nat) (t : Trk K), us[j]? = some t → t.enter = f (((j : K) + 1 / 2) * (L / n)) := by
    intro us n L f he j t ht
    have := congrArg (fun l => l[j]?) he
    rw [uniform_eq] at this
    simp only [List.getElem?_map, ht, Option.map_some] at this
    have hj : j < n := by
      by_contra hj
      rw [List.getElem?_eq_none (by simpa using hj)] at this
      simp at this
    rw [List.getElem?_range hj] at this
    simpa using this
  rw [hu] at h2 h3
  refine ⟨l, b, h1, fun j t u ht hu' => ?_, fun j t u ht hu' => ?_⟩
  · have e1 := pts l _ _ (fun y => ⟨0, y, 0⟩) h2 j t ht
    have e2 := pts l _ _ (fun y => ⟨0, y, 0⟩) h2 (j + 1) u hu'
    have hs := number_spacing T hT.delta hY s0
    have hn : (0 : K) < T.number g.Y a.2 := by exact_mod_cast number_pos T hT.delta hY s0
    unfold apart
    rw [e1, e2]
    dsimp only
    push_cast
    rw [show a.1 * (((j : K) + 1 + 1 / 2) * (g.Y / T.number g.Y a.2) - ((j : K) + 1 / 2) * (g.Y / T.number g.Y a.2)) - a.2 * (0 - 0) =
      a.1 * (g.Y / T.number g.Y a.2) by ring, abs_of_pos (mul_pos c0 (div_pos hY hn))]
    calc a.1 * (g.Y / T.number g.Y a.2) ≤ a.1 * (T.delta / a.2) := mul_le_mul_of_nonneg_left hs c0.le
      _ = T.delta * (a.1 / a.2) := by ring
  · have e1 := pts b _ _ (fun x => ⟨x, 0, 0⟩) h3 j t ht
    have e2 := pts b _ _ (fun x => ⟨x, 0, 0⟩) h3 (j + 1) u hu'
    have hs := number_spacing T hT.delta hX c0
    have hn : (0 : K) < T.number g.X a.1 := by exact_mod_cast number_pos T hT.delta hX c0
    unfold apart
    rw [e1, e2]
    dsimp only
    push_cast
    rw [show a.1 * (0 - 0) - a.2 * (((j : K) + 1 + 1 / 2) * (g.X / T.number g.X a.1) - ((j : K) + 1 / 2) * (g.X / T.number g.X a.1)) =
      -(a.2 * (g.X / T.number g.X a.1)) by ring, abs_neg, abs_of_pos (mul_pos s0 (div_pos hX hn))]
    calc a.2 * (g.X / T.number g.X a.1) ≤ a.2 * (T.delta / a.1) := mul_le_mul_of_nonneg_left hs s0.le
      _ = T.delta * (a.2 / a.1) := by ring

/-- C121, the claim about the spacing asked for: neighbouring tracks are no further apart. -/
def C121SpacingClaim : Prop :=
  ∀ (sq : ℚ → ℚ) (T : Tracker ℚ) (g : Geo ℚ) (st : St ℚ), Good T → T.base = uniform → 0 < g.X → 0 < g.Y →
    T.trackit sq g St.init = some st → ∀ (i : Nat) (a : ℚ × ℚ), T.azi[i]? = some a → a.1 * a.1 + a.2 * a.2 = 1 →
    ∃ ts, st.tracks 0 (i * T.np) = some ts ∧ ∀ (j : Nat) (t u : Trk ℚ), ts[j]? = some t → ts[j + 1]? = some u →
      t.enter.x = 0 ∧ u.enter.x = 0 ∨ t.enter.y = 0 ∧ u.enter.y = 0 → apart a.1 a.2 t u ≤ T.delta

/-! ### A tracker used again -/

/-- `generate` on a tracker that has tracks: octants other than the first keep theirs. -/
theorem generate_again (sq : K → K) {T : Tracker K} (hT : Good T) (g : Geo K) (hX : 0 < g.X) (hY : 0 < g.Y) (st st' : St K)
    (h : T.generate sq g st = some st') :
    st'.segs = st.segs ∧ (∀ o a ts, o ≠ 0 → st.tracks o a = some ts → st'.tracks o a = some ts) ∧
      (∀ i a, T.azi[i]? = some a → ∃ ts, st'.tracks 0 (i * T.np) = some ts ∧ First T g a.1 a.2 ts ∧ ∀ t ∈ ts, st.next ≤ t.store) := by
  obtain ⟨s1, q1, q2, q3, q4, N, _, q6⟩ := quadrant_spec sq hT g hX hY T.azi 0 st hT.azi
  simp only [Nat.zero_add] at q3 q4 q6
  unfold Tracker.generate at h
  rw [q1, Option.map_some, Option.some.injEq] at h
  subst h
  refine ⟨q2, fun o a ts ho hts => ?_, fun i a ha => ?_⟩
  · dsimp only [insert]
    rw [q4 o a (Or.inl ho), hts]; rfl
  · obtain ⟨ts, h1, h2⟩ := q3 i a ha
    refine ⟨ts, by dsimp only [insert]; rw [h1]; rfl, h2, fun t ht => ?_⟩
    obtain ⟨hi, _⟩ := List.getElem?_eq_some_iff.mp ha
    have : t.store ∈ List.range' st.next N := by
      rw [← q6]
      exact List.mem_map_of_mem (List.mem_flatMap.mpr ⟨i, List.mem_range.mpr hi, by rw [h1]; exact ht⟩)
    exact (List.mem_range'_1.mp this).1

/-- A second geometry given to the same tracker: only the first octant gets tracks of it.  The others keep those of the
    first geometry, and each of the second octant gets the second geometry's segments after those it has. -/
theorem C121_again (sq : K → K) {T : Tracker K} (hT : Good T) {g1 g2 : Geo K} (hX1 : 0 < g1.X) (hY1 : 0 < g1.Y) (hX2 : 0 < g2.X)
    (hY2 : 0 < g2.Y) {st1 st2 : St K} (h1 : T.trackit sq g1 St.init = some st1) (h2 : T.trackit sq g2 st1 = some st2) (i : Nat) (a : K × K)
    (ha : T.azi[i]? = some a) :
    (∃ ts, st2.tracks 0 (i * T.np) = some ts ∧ ∀ t ∈ ts, Crosses g2.X g2.Y a.1 a.2 t) ∧
    (∀ o, 1 ≤ o → o < 4 → ∃ ts, st2.tracks o (i * T.np) = some ts ∧ ∀ t ∈ ts, Crosses g1.X g1.Y (sx o * a.1) (sy o * a.2) t) ∧
    (∀ ts, st2.tracks 1 (i * T.np) = some ts → ∀ t ∈ ts, ∃ l m, g1.seg t.enter t.exit = some l ∧ g2.seg t.enter t.exit = some m ∧
      t.path st2.segs = l ++ m) ∧
    (∀ ts, st2.tracks 2 (i * T.np) = some ts → ∀ t ∈ ts, ∀ o < 2, ∀ (i' : Nat) (a' : K × K) ts', T.azi[i']? = some a' →
      st2.tracks o (i' * T.np) = some ts' → ∀ u ∈ ts', u.store ≠ t.store) := by
  obtain ⟨hm, hs1⟩ := trackit_made hT hX1 hY1 h1
  obtain ⟨s, segs, hg, hs2, rfl⟩ := trackit_split hT.dim h2
  obtain ⟨e, hkeep, hfirst⟩ := generate_again sq hT g2 hX2 hY2 st1 s hg
  obtain ⟨N, hnext, hN⟩ := hm.stores
  rw [Nat.zero_add] at hnext
  obtain ⟨hr1, hr2⟩ := made_rev hm
  have hnd : ((st1.octant T 0 ++ st1.octant T 1).map Trk.store).Nodup := by rw [hN]; exact List.nodup_range'
  have hold : ∀ t ∈ st1.octant T 0 ++ st1.octant T 1, t.store < st1.next := fun t ht => by
    have : t.store ∈ List.range' 0 N := by rw [← hN]; exact List.mem_map_of_mem ht
    have := (List.mem_range'_1.mp this).2
    omega
  have hnew : ∀ t ∈ s.octant T 0, st1.next ≤ t.store := fun t ht => by
    obtain ⟨j, b, ts, hb, hts, htt⟩ := mem_octant ht
    obtain ⟨us, h3, _, h4⟩ := hfirst j b hb
    rw [hts, Option.some.injEq] at h3
    subst h3
    exact h4 t htt
  have hsame : ∀ o, 1 ≤ o → o < 4 → s.octant T o = st1.octant T o := fun o h1 h4 => by
    unfold St.octant
    apply List.flatMap_congr
    intro j hj
    have hj' := List.mem_range.mp hj
    obtain ⟨ts, hts, _⟩ := made_crosses hT hm j T.azi[j] (List.getElem?_eq_getElem hj') o h4
    rw [hts, hkeep o _ ts (by omega) hts]
  have htr : ∀ o, 1 ≤ o → o < 4 → ∀ (j : Nat) (b : K × K), T.azi[j]? = some b → s.tracks o (j * T.np) = st1.tracks o (j * T.np) :=
    fun o h1 h4 j b hb => by
      obtain ⟨ts, hts, _⟩ := made_crosses hT hm j b hb o h4
      rw [hts, hkeep o _ ts (by omega) hts]
  refine ⟨?_, ?_, ?_, ?_⟩
  · obtain ⟨ts, h3, h4, _⟩ := hfirst i a ha
    exact ⟨ts, h3, fun t ht => (h4.2 t ht).2⟩
  · intro o ho1 ho4
    obtain ⟨ts, hts, _, hc⟩ := made_crosses hT hm i a ha o ho4
    exact ⟨ts, hkeep o _ ts (by omega) hts, hc⟩
  · intro ts hts t ht
    dsimp only at hts
    rw [htr 1 (by omega) (by omega) i a ha] at hts
    have hto : t ∈ st1.octant T 1 := octant_mem ha hts ht
    have htm : t ∈ st1.octant T 0 ++ st1.octant T 1 := List.mem_append_right _ hto
    have hrev := hr1 t htm
    obtain ⟨a1, b1⟩ := segAll_spec g1 _ _ _ hs1
    obtain ⟨a2, b2⟩ := segAll_spec g2 _ _ _ hs2
    obtain ⟨l, hl⟩ := Option.isSome_iff_exists.mp (a1 t (by rw [all_eq, ← List.append_assoc]; exact List.mem_append_left _ htm) hrev)
    have hin2 : t ∈ s.all T := by
      rw [all_eq, hsame 1 (by omega) (by omega)]
      exact List.mem_append_right _ (List.mem_append_left _ hto)
    obtain ⟨m, hmm⟩ := Option.isSome_iff_exists.mp (a2 t hin2 hrev)
    refine ⟨l, m, hl, hmm, ?_⟩
    rw [Trk.path, if_neg (by rw [hrev]; simp)]
    dsimp only
    have c1 := b1 t.store
    rw [all_eq, ← List.append_assoc, List.filter_append, filter_store _ hnd hr1 t htm, filter_rev _ hr2, List.append_nil] at c1
    have c2 := b2 t.store
    have hnd1 : ((st1.octant T 1).map Trk.store).Nodup := by
      rw [List.map_append] at hnd
      exact hnd.of_append_right
    rw [all_eq, List.filter_append, hsame 1 (by omega) (by omega), List.filter_append, hsame 2 (by omega) (by omega),
      hsame 3 (by omega) (by omega), filter_rev _ hr2,
      filter_store _ hnd1 (fun u hu => hr1 u (List.mem_append_right _ hu)) t hto, List.append_nil, e, c1] at c2
    rw [show (s.octant T 0).filter (fun u => !u.rev && u.store == t.store) = [] from List.filter_eq_nil_iff.mpr fun u hu hu' => by
      simp only [Bool.and_eq_true, beq_iff_eq] at hu'
      have := hnew u hu
      have := hold t htm
      omega] at c2
    rw [c2]
    simp [hl, hmm]
  · intro ts hts t ht o ho j b us hb hus u hu
    dsimp only at hts hus
    rw [htr 2 (by omega) (by omega) i a ha] at hts
    obtain ⟨vs, n1, _, k0, k1, k2, _⟩ := hm.tracks i a ha
    rw [k2, Option.some.injEq] at hts
    subst hts
    obtain ⟨v, hv, rfl⟩ := List.mem_map.mp ht
    have hvo : v ∈ st1.octant T 0 := octant_mem ha k0 hv
    show u.store ≠ v.store
    have hlt := hold v (List.mem_append_left _ hvo)
    match o, ho with
    | 0, _ =>
      have huo : u ∈ s.octant T 0 := octant_mem hb hus hu
      have := hnew u huo
      omega
    | 1, _ =>
      rw [htr 1 (by omega) (by omega) j b hb] at hus
      have huo : u ∈ st1.octant T 1 := octant_mem hb hus hu
      intro e
      rw [List.map_append] at hnd
      exact (List.disjoint_of_nodup_append hnd) (List.mem_map_of_mem hvo) (e ▸ List.mem_map_of_mem huo)

omit [IsStrictOrderedRing K] in
/-- A quadrature of another dimension: no tracks are made, and an empty database is returned. -/
theorem C121_no_3D (sq : K → K) (T : Tracker K) (hd : T.dim ≠ 2) (g : Geo K) : T.trackit sq g St.init = some St.init := by
  unfold Tracker.trackit
  rw [if_neg hd, Option.bind_some]
  have : ∀ ks : List (Nat × Nat), (ks.flatMap fun k => ((St.init : St K).tracks k.1 k.2).getD []) = [] := fun ks => by
    simp [St.init]
  rw [St.all, this]
  rfl

/-- Defaults: tracks at most 0.1 apart along the side (before the sine or cosine), at least one. -/
theorem C121_defaults (dim : Nat) (base : Nat → K → List (K × K)) (azi : List (K × K)) (np : Nat) :
    (Tracker.new none none dim base azi np).delta = 1 / 10 ∧ (Tracker.new none none dim base azi np).minimum = 1 ∧
    ∀ (d : K) (m : Int), (Tracker.new (some d) (some m) dim base azi np).delta = d ∧ (Tracker.new (some d) (some m) dim base azi np).minimum = m :=
  ⟨rfl, rfl, fun _ _ => ⟨rfl, rfl⟩⟩

/-! ### Concrete cases -/

/-- One region; the length of a segment is not that of the track (no square roots), only its region and ends count here. -/
def box (X Y : ℚ) : Geo ℚ := ⟨X, Y, 0, fun p q => some [⟨0, |q.x - p.x|⟩]⟩

/-- One azimuth of cosine 4/5, two points per side at least. -/
def exT : Tracker ℚ := ⟨2, 3 / 5, 1, uniform, [(4 / 5, 3 / 5)], 2⟩

theorem exT_good : Good exT :=
  ⟨rfl, by norm_num [exT], by norm_num [exT], by
    intro a ha
    simp only [exT, List.mem_singleton] at ha
    subst ha
    constructor <;> norm_num [tiny], uniform_good⟩

theorem box_some (X Y : ℚ) (hX : 0 < X) (hY : 0 < Y) : ∃ st, exT.trackit id (box X Y) St.init = some st :=
  C121_defined id exT_good (box X Y) hX hY fun _ _ _ _ => rfl

/-- Where the tracks of one angle begin and end. -/
def ends (st : Option (St ℚ)) (o a : Nat) : Option (List ((ℚ × ℚ) × (ℚ × ℚ))) :=
  st.bind fun st => (st.tracks o a).map fun ts => ts.map fun t => ((t.enter.x, t.enter.y), (t.exit.x, t.exit.y))

example : ends (exT.trackit id (box 3 2) St.init) 0 0 = some [((0, 1 / 2), (2, 2)), ((0, 3 / 2), (2 / 3, 2)), ((3 / 8, 0), (3, 63 / 32)),
    ((9 / 8, 0), (3, 45 / 32)), ((15 / 8, 0), (3, 27 / 32)), ((21 / 8, 0), (3, 9 / 32))] := by
  decide +kernel

example : ends (exT.trackit id (box 3 2) St.init) 3 0 = some [((1, 2), (3, 1 / 2)), ((7 / 3, 2), (3, 3 / 2)), ((0, 63 / 32), (21 / 8, 0)),
    ((0, 45 / 32), (15 / 8, 0)), ((0, 27 / 32), (9 / 8, 0)), ((0, 9 / 32), (3 / 8, 0))] := by
  decide +kernel

/-- After a second, larger geometry the second octant still has the tracks of the first one, with segments of both. -/
example : ends ((exT.trackit id (box 1 1) St.init).bind (exT.trackit id (box 3 2))) 1 0 = ends (exT.trackit id (box 1 1) St.init) 1 0 ∧
    (((exT.trackit id (box 1 1) St.init).bind (exT.trackit id (box 3 2))).map fun st => ((st.tracks 1 0).getD []).map fun t =>
      (t.path st.segs).length) = some [2, 2, 2] := by
  decide +kernel

/-- The weights of tracks across a rectangle do not add up to its width. -/
theorem C121_claim_fails : ¬ C121Claim := by
  intro h
  obtain ⟨st, hst⟩ := box_some 3 2 (by norm_num) (by norm_num)
  obtain ⟨ts, h1, h2⟩ := h id exT (box 3 2) st exT_good (by norm_num [box]) (by norm_num [box]) hst 0 (4 / 5, 3 / 5) rfl 0 (by omega)
  exact C121_width_wrong id exT_good (by norm_num [box]) (by norm_num [box]) (by norm_num [box]) hst 0 (4 / 5, 3 / 5) rfl (by norm_num) ts 0
    (by omega) h1 h2

/-- The maximum spacing is not kept: 0.8 instead of 0.6. -/
theorem C121_spacing_claim_fails : ¬ C121SpacingClaim := by
  intro h
  obtain ⟨st, hst⟩ := box_some 3 2 (by norm_num) (by norm_num)
  obtain ⟨ts, h1, h2⟩ := h id exT (box 3 2) st exT_good rfl (by norm_num [box]) (by norm_num [box]) hst 0 (4 / 5, 3 / 5) rfl (by norm_num)
  rw [Nat.zero_mul] at h1
  have e : ends (exT.trackit id (box 3 2) St.init) 0 0 = some [((0, 1 / 2), (2, 2)), ((0, 3 / 2), (2 / 3, 2)), ((3 / 8, 0), (3, 63 / 32)),
    ((9 / 8, 0), (3, 45 / 32)), ((15 / 8, 0), (3, 27 / 32)), ((21 / 8, 0), (3, 9 / 32))] := by
    decide +kernel
  rw [hst, ends, Option.bind_some, h1, Option.map_some, Option.some.injEq] at e
  obtain _ | ⟨t, _ | ⟨u, us⟩⟩ := ts
  · simp at e
  · simp at e
  · simp only [List.map_cons, List.cons.injEq, Prod.mk.injEq] at e
    obtain ⟨⟨⟨a1, a2⟩, _⟩, ⟨⟨b1, b2⟩, _⟩, _⟩ := e
    have := h2 0 t u rfl rfl (Or.inl ⟨a1, b1⟩)
    rw [apart, a1, a2, b1, b2] at this
    norm_num [exT] at this

end Detran.Tracker
