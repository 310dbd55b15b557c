import Verif.Model.Geometry
import Mathlib.Data.Rat.Defs
import Mathlib.Algebra.Order.Ring.Rat
import Mathlib.Tactic.Ring
import Mathlib.Tactic.FieldSimp
import Mathlib.Tactic.Linarith

/-!
# C40: track reversal and normalisation
-/

namespace Detran.Geom

variable {K : Type} [Field K] [LinearOrder K] [IsStrictOrderedRing K]

/-! ## Reversal -/

/-- C40: reversing an original track swaps its ends and visits its segments in opposite order. -/
theorem C40_reverse (segs : Nat → List (Seg K)) (t : Trk K) (h : t.rev = false) :
    t.reverse.enter = t.exit ∧ t.reverse.exit = t.enter ∧
    t.reverse.path segs = (t.path segs).reverse ∧ t.reverse.w = t.w := by
  simp [Trk.reverse, Trk.enter, Trk.exit, Trk.path, h]

/-- C40: reversing twice restores the end points of any track. -/
theorem C40_double_reverse_ends (t : Trk K) :
    t.reverse.reverse.enter = t.enter ∧ t.reverse.reverse.exit = t.exit := by
  constructor <;> simp [Trk.reverse, Trk.enter, Trk.exit]

/-- C40: but the segments of an original track reversed twice are still visited backwards. -/
theorem C40_double_reverse_path (segs : Nat → List (Seg K)) (t : Trk K) (h : t.rev = false) :
    t.reverse.reverse.path segs = (t.path segs).reverse := by
  simp [Trk.reverse, Trk.path, h]

/-- The claim: reversing twice gives back the traversal order. -/
def C40ReverseClaim : Prop := ∀ (segs : Nat → List (Seg ℚ)) (t : Trk ℚ), t.rev = false →
  t.reverse.reverse.path segs = t.path segs

theorem C40_double_reverse_wrong : ¬ C40ReverseClaim := by
  intro h
  exact absurd (h (fun _ => [⟨0, 1⟩, ⟨1, 2⟩]) ⟨⟨0, 0, 0⟩, ⟨3, 0, 0⟩, 1, false, 0⟩ rfl)
    (by decide +kernel)

/-! ## Normalisation -/

/-- Specification: how often a segment vector is referred to. -/
def shares (db : DB K) (s : Nat) : Nat := ((db.flatMap Prod.snd).map Trk.store).count s

/-- Specification: tracked volume of region `r`: sum over angles, tracks and segments of
    length × track width × angle weight, over the total angle weight. -/
def trackedVolume (segs : Nat → List (Seg K)) (db : DB K) (r : Nat) : K :=
  (db.map fun e => (e.2.map fun t =>
    (((segs t.store).filter (·.region = r)).map Seg.length).sum * t.w).sum * e.1).sum /
  (db.map Prod.fst).sum

omit [LinearOrder K] [IsStrictOrderedRing K] in
theorem foldl_plus {α : Type} (f : α → K) (g : K → α → K) (h : ∀ s x, g s x = s + f x) :
    ∀ (l : List α) (s : K), l.foldl g s = s + (l.map f).sum := by
  intro l
  induction l with
  | nil => intro s; simp
  | cons a l ih => intro s; rw [List.foldl_cons, ih, h, List.map_cons, List.sum_cons]; ring

omit [LinearOrder K] [IsStrictOrderedRing K] in
theorem sum_mul_right {α : Type} (f : α → K) (c : K) : ∀ l : List α,
    (l.map fun x => f x * c).sum = (l.map f).sum * c := by
  intro l
  induction l with
  | nil => simp
  | cons a l ih => simp only [List.map_cons, List.sum_cons, ih]; ring

omit [LinearOrder K] [IsStrictOrderedRing K] in
theorem segFold (l : List (Seg K)) (r : Nat) (w a : K) : ∀ s : K,
    l.foldl (fun s g => if g.region = r then s + g.length * w * a else s) s =
      s + ((l.filter (·.region = r)).map Seg.length).sum * w * a := by
  induction l with
  | nil => intro s; simp
  | cons g l ih =>
    intro s
    rw [List.foldl_cons, ih]
    by_cases h : g.region = r
    · rw [if_pos h, List.filter_cons_of_pos (by simpa using h), List.map_cons, List.sum_cons]; ring
    · rw [if_neg h, List.filter_cons_of_neg (by simpa using h)]

omit [LinearOrder K] [IsStrictOrderedRing K] in
theorem volumeSum_eq (segs : Nat → List (Seg K)) (db : DB K) (r : Nat) :
    volumeSum segs db r / totalWeight db = trackedVolume segs db r := by
  have h1 : volumeSum segs db r = (db.map fun e => (e.2.map fun t =>
      (((segs t.store).filter (·.region = r)).map Seg.length).sum * t.w).sum * e.1).sum := by
    unfold volumeSum
    rw [foldl_plus (fun e : K × List (Trk K) => (e.2.map fun t =>
      (((segs t.store).filter (·.region = r)).map Seg.length).sum * t.w).sum * e.1), zero_add]
    intro s e
    rw [foldl_plus (fun t : Trk K =>
      (((segs t.store).filter (·.region = r)).map Seg.length).sum * t.w * e.1) _
      (fun s t => segFold _ _ _ _ _), sum_mul_right]
  have h2 : totalWeight db = (db.map Prod.fst).sum := by
    unfold totalWeight
    rw [foldl_plus (fun e : K × List (Trk K) => e.1) _ (fun _ _ => rfl), zero_add]
  rw [h1, h2, trackedVolume]

omit [LinearOrder K] [IsStrictOrderedRing K] in
theorem mem_met (segs : Nat → List (Seg K)) (db : DB K) (r : Nat) :
    r ∈ met segs db ↔ ∃ e ∈ db, ∃ t ∈ e.2, ∃ g ∈ segs t.store, g.region = r := by
  simp only [met, List.mem_dedup, List.mem_flatMap, List.mem_map]

/-- C40: `volume()` is the tracked volume of every region, when the regions met are numbered without
    gaps. -/
theorem C40_volume (segs : Nat → List (Seg K)) (db : DB K) (v : List K)
    (h : volume segs db = some v) (r : Nat) (hr : r < v.length) :
    v.getD r 0 = trackedVolume segs db r := by
  unfold volume at h
  dsimp only at h
  by_cases hc : ((met segs db).all fun x => decide (x < (met segs db).length)) = true
  · rw [if_pos hc, Option.some.injEq] at h
    subst h
    rw [List.length_map, List.length_range] at hr
    rw [List.getD_eq_getElem?_getD, List.getElem?_map, List.getElem?_range hr]
    exact volumeSum_eq segs db r
  · rw [if_neg hc] at h; cases h

/-- Scaling by a power of the ratio. -/
def scaled (ratio : Nat → K) (m : Nat) (l : List (Seg K)) : List (Seg K) :=
  l.map fun g => ⟨g.region, g.length * ratio g.region ^ m⟩

omit [LinearOrder K] [IsStrictOrderedRing K] in
theorem scale_tracks (ratio : Nat → K) : ∀ (ts : List (Trk K)) (segs : Nat → List (Seg K)) (s : Nat),
    ts.foldl (scaleTrack ratio) segs s = scaled ratio ((ts.map Trk.store).count s) (segs s) := by
  intro ts
  induction ts with
  | nil => intro segs s; simp [scaled]
  | cons t ts ih =>
    intro segs s
    rw [List.foldl_cons, ih, List.map_cons, List.count_cons]
    unfold scaleTrack
    by_cases h : s = t.store
    · rw [if_pos h]
      unfold scaled
      rw [List.map_map]
      refine List.map_congr_left fun g _ => ?_
      simp only [Function.comp_apply, Seg.mk.injEq, true_and]
      rw [if_pos (by simp [h]), pow_succ]; ring
    · rw [if_neg h, if_neg (by simpa using fun e => h e.symm), Nat.add_zero]

omit [LinearOrder K] [IsStrictOrderedRing K] in
theorem foldl_nested {σ α β : Type} (f : σ → β → σ) (h : α → List β) : ∀ (l : List α) (s : σ),
    l.foldl (fun s a => (h a).foldl f s) s = (l.flatMap h).foldl f s := by
  intro l
  induction l with
  | nil => intro s; rfl
  | cons a l ih => intro s; rw [List.foldl_cons, ih, List.flatMap_cons, List.foldl_append]

/-- C40: what normalisation does: every segment is scaled by the ratio of its region raised to the
    number of tracks sharing its segment vector. -/
theorem C40_normalize (ref : Nat → K) (segs segs' : Nat → List (Seg K)) (db : DB K)
    (h : normalize ref segs db = some segs') :
    ∃ v, volume segs db = some v ∧ ∀ s, segs' s =
      (segs s).map fun g => ⟨g.region, g.length * (ref g.region / v.getD g.region 0) ^ shares db s⟩ := by
  unfold normalize at h
  rw [Option.map_eq_some_iff] at h
  obtain ⟨v, hv, rfl⟩ := h
  refine ⟨v, hv, fun s => ?_⟩
  rw [foldl_nested (scaleTrack fun r => ref r / v.getD r 0) Prod.snd db segs, scale_tracks]
  rfl

omit [LinearOrder K] [IsStrictOrderedRing K] in
/-- Scaling every vector by a fixed power scales each tracked volume. -/
theorem tracked_scaled (ratio : Nat → K) (m : Nat) (segs segs' : Nat → List (Seg K)) (db : DB K)
    (h : ∀ e ∈ db, ∀ t ∈ e.2, segs' t.store = scaled ratio m (segs t.store)) (r : Nat) :
    trackedVolume segs' db r = trackedVolume segs db r * ratio r ^ m := by
  unfold trackedVolume
  rw [div_mul_eq_mul_div, ← sum_mul_right]
  congr 1
  refine congrArg (List.sum (α := K)) (List.map_congr_left fun e he => ?_)
  rw [mul_right_comm]
  congr 1
  rw [← sum_mul_right]
  refine congrArg (List.sum (α := K)) (List.map_congr_left fun t ht => ?_)
  rw [h e he t ht, mul_right_comm]
  congr 1
  unfold scaled
  rw [List.filter_map, List.map_map, ← sum_mul_right]
  refine congrArg (List.sum (α := K)) ?_
  have : ((fun x : Seg K => decide (x.region = r)) ∘
      fun g : Seg K => (⟨g.region, g.length * ratio g.region ^ m⟩ : Seg K)) =
      fun x => decide (x.region = r) := rfl
  rw [this]
  refine List.map_congr_left fun g hg => ?_
  rw [List.mem_filter, decide_eq_true_eq] at hg
  simp only [Function.comp_apply, hg.2]

/-- C40: in a database in which no two tracks share a segment vector, the tracked volume of every
    region met becomes its reference volume. -/
theorem C40_normalize_unshared (ref : Nat → K) (segs segs' : Nat → List (Seg K)) (db : DB K)
    (h : normalize ref segs db = some segs') (h1 : ∀ e ∈ db, ∀ t ∈ e.2, shares db t.store = 1)
    (r : Nat) (hr : r ∈ met segs db) (hv : trackedVolume segs db r ≠ 0) :
    trackedVolume segs' db r = ref r := by
  obtain ⟨v, hvol, hs⟩ := C40_normalize ref segs segs' db h
  rw [tracked_scaled (fun r => ref r / v.getD r 0) 1 segs segs' db
    (fun e he t ht => by rw [hs, h1 e he t ht]; rfl) r, pow_one]
  have hlen : r < v.length := by
    unfold volume at hvol
    dsimp only at hvol
    by_cases hc : ((met segs db).all fun x => decide (x < (met segs db).length)) = true
    · rw [if_pos hc, Option.some.injEq] at hvol
      rw [← hvol, List.length_map, List.length_range]
      simpa using List.all_eq_true.1 hc r hr
    · rw [if_neg hc] at hvol; cases hvol
  rw [C40_volume segs db v hvol r hlen]
  field_simp

/-- C40: in a database in which every vector is shared by a track and its reverse (every database the
    tracker makes), the tracked volume becomes the square of the reference volume over the
    unnormalised tracked volume. -/
theorem C40_normalize_shared (ref : Nat → K) (segs segs' : Nat → List (Seg K)) (db : DB K)
    (h : normalize ref segs db = some segs') (h1 : ∀ e ∈ db, ∀ t ∈ e.2, shares db t.store = 2)
    (r : Nat) (hr : r ∈ met segs db) (hv : trackedVolume segs db r ≠ 0) :
    trackedVolume segs' db r = ref r ^ 2 / trackedVolume segs db r := by
  obtain ⟨v, hvol, hs⟩ := C40_normalize ref segs segs' db h
  rw [tracked_scaled (fun r => ref r / v.getD r 0) 2 segs segs' db
    (fun e he t ht => by rw [hs, h1 e he t ht]; rfl) r]
  have hlen : r < v.length := by
    unfold volume at hvol
    dsimp only at hvol
    by_cases hc : ((met segs db).all fun x => decide (x < (met segs db).length)) = true
    · rw [if_pos hc, Option.some.injEq] at hvol
      rw [← hvol, List.length_map, List.length_range]
      simpa using List.all_eq_true.1 hc r hr
    · rw [if_neg hc] at hvol; cases hvol
  rw [C40_volume segs db v hvol r hlen]
  field_simp

/-- One angle with two tracks through two regions, unshared. -/
def exDB : DB ℚ := [(1 / 2, [⟨⟨0, 0, 0⟩, ⟨3, 0, 0⟩, 1, false, 0⟩, ⟨⟨0, 1, 0⟩, ⟨3, 1, 0⟩, 1, false, 1⟩])]
/-- The same tracks with their reverses under a second angle entry. -/
def exDB2 : DB ℚ := exDB ++ exDB.map fun e => (e.1, e.2.map Trk.reverse)
def exSegs : Nat → List (Seg ℚ)
  | 0 => [⟨0, 1⟩, ⟨1, 2⟩]
  | 1 => [⟨0, 2⟩, ⟨1, 1⟩]
  | _ => []

example : (normalize (fun _ => 6) exSegs exDB).map (fun s => (trackedVolume s exDB 0, trackedVolume s exDB 1))
    = some (6, 6) := by decide +kernel
example : ∀ e ∈ exDB, ∀ t ∈ e.2, shares exDB t.store = 1 := by decide +kernel
example : ∀ e ∈ exDB2, ∀ t ∈ e.2, shares exDB2 t.store = 2 := by decide +kernel

/-- The claim: normalisation makes tracked volumes equal reference volumes. -/
def C40NormalizeClaim : Prop := ∀ (ref : Nat → ℚ) (segs segs' : Nat → List (Seg ℚ)) (db : DB ℚ),
  normalize ref segs db = some segs' → ∀ r ∈ met segs db, trackedVolume segs db r ≠ 0 →
    trackedVolume segs' db r = ref r

/-- C40: it fails for a database holding tracks with their reverses: the ratio is applied twice. -/
theorem C40_normalize_wrong : ¬ C40NormalizeClaim := by
  intro h
  obtain ⟨s', hs⟩ : ∃ s', normalize (fun _ => (6 : ℚ)) exSegs exDB2 = some s' :=
    Option.isSome_iff_exists.1 (by decide +kernel)
  have h1 := h _ _ _ _ hs 0 (by decide +kernel) (by decide +kernel)
  have h2 : (normalize (fun _ => (6 : ℚ)) exSegs exDB2).map (fun s => trackedVolume s exDB2 0) =
      some 12 := by decide +kernel
  rw [hs, Option.map_some, Option.some.injEq] at h2
  rw [h1] at h2
  exact absurd h2 (by decide +kernel)

end Detran.Geom
