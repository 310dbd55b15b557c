import Verif.Model.Gmres
import Mathlib.Algebra.BigOperators.Group.Finset.Basic
import Mathlib.Algebra.BigOperators.Intervals
import Mathlib.Algebra.BigOperators.Ring.Finset
import Mathlib.Algebra.Module.BigOperators
import Mathlib.Algebra.Order.BigOperators.Ring.Finset
import Mathlib.Tactic.Ring
import Mathlib.Tactic.Module
import Mathlib.Tactic.Linarith
import Mathlib.Tactic.FieldSimp
import Mathlib.Tactic.LinearCombination

/-! Helper lemmas for the GMRES model. -/
namespace Detran.Gmres

open Finset Detran.Solver

variable {K E : Type} [Field K] [LinearOrder K] [IsStrictOrderedRing K]
  [AddCommGroup E] [Module K E]

/-- What is asked of `Vector::dot`: an inner product. -/
structure IsDot (dot : E → E → K) : Prop where
  add : ∀ a b c, dot (a + b) c = dot a c + dot b c
  smul : ∀ (t : K) a c, dot (t • a) c = t * dot a c
  comm : ∀ a b, dot a b = dot b a
  pos : ∀ a, a ≠ 0 → 0 < dot a a

/-- What is asked of `std::sqrt`. -/
def IsSqrt (sq : K → K) : Prop := ∀ a, 0 ≤ a → 0 ≤ sq a ∧ sq a * sq a = a

namespace IsDot

variable {dot : E → E → K} (hd : IsDot dot)
include hd

theorem zero_left (c : E) : dot 0 c = 0 := by
  have := hd.smul 0 0 c
  simpa using this

theorem add' (a b c : E) : dot a (b + c) = dot a b + dot a c := by
  rw [hd.comm, hd.add, hd.comm b, hd.comm c]

theorem smul' (t : K) (a c : E) : dot a (t • c) = t * dot a c := by
  rw [hd.comm, hd.smul, hd.comm c]

theorem neg (a c : E) : dot (-a) c = -dot a c := by
  have := hd.smul (-1) a c
  simpa using this

theorem sub (a b c : E) : dot (a - b) c = dot a c - dot b c := by
  rw [sub_eq_add_neg, hd.add, hd.neg, sub_eq_add_neg]

theorem sub' (a b c : E) : dot a (b - c) = dot a b - dot a c := by
  rw [hd.comm, hd.sub, hd.comm b, hd.comm c]

theorem sum (s : Finset Nat) (f : Nat → E) (c : E) :
    dot (∑ i ∈ s, f i) c = ∑ i ∈ s, dot (f i) c := by
  classical
  induction s using Finset.induction_on with
  | empty => simp [hd.zero_left]
  | insert a s ha ih => rw [Finset.sum_insert ha, Finset.sum_insert ha, hd.add, ih]

theorem nonneg (a : E) : 0 ≤ dot a a := by
  by_cases h : a = 0
  · rw [h, hd.zero_left]
  · exact (hd.pos a h).le

theorem eq_zero {a : E} (h : dot a a = 0) : a = 0 := by
  by_contra hne
  exact absurd h (hd.pos a hne).ne'

end IsDot

theorem IsSqrt.eq_zero {sq : K → K} (h : IsSqrt sq) {a : K} (ha : 0 ≤ a) (hz : sq a = 0) : a = 0 := by
  have := (h a ha).2
  rw [hz] at this; simpa using this.symm

theorem IsSqrt.zero {sq : K → K} (h : IsSqrt sq) : sq 0 = 0 := by
  have := (h 0 le_rfl).2
  simpa using this

theorem IsSqrt.unique {sq : K → K} (h : IsSqrt sq) {a x : K} (ha : 0 ≤ x) (hx : x * x = a) :
    sq a = x := by
  have ha' : 0 ≤ a := hx ▸ mul_self_nonneg x
  obtain ⟨h1, h2⟩ := h a ha'
  exact (mul_self_inj h1 ha).1 (h2.trans hx.symm)

@[simp] theorem set_same {α : Type} (f : Nat → α) (i : Nat) (a : α) : set f i a i = a := by
  simp [set]

theorem set_ne {α : Type} (f : Nat → α) {i j : Nat} (a : α) (h : j ≠ i) : set f i a j = f j := by
  simp [set, h]

theorem set_set {α : Type} (f : Nat → α) (i : Nat) (a b : α) : set (set f i a) i b = set f i b := by
  funext j
  unfold set
  split <;> rfl

/-! ### Gram–Schmidt -/

/-- `v_0 .. v_k` are orthonormal. -/
def Ortho (dot : E → E → K) (v : Nat → E) (n : Nat) : Prop :=
  ∀ i j, i < n → j < n → dot (v i) (v j) = if i = j then 1 else 0

theorem mgs_aux {dot : E → E → K} (hd : IsDot dot) {v : Nat → E} {n : Nat} (ho : Ortho dot v n)
    (w : E) (h : Nat → K) (m : Nat) (hm : m ≤ n) :
    let p := (List.range m).foldl
      (fun (p : E × (Nat → K)) j => (p.1 + (-(dot p.1 (v j))) • v j, set p.2 j (dot p.1 (v j)))) (w, h)
    w = p.1 + ∑ i ∈ range m, p.2 i • v i ∧ (∀ j, j < m → dot p.1 (v j) = 0) ∧
      ∀ j, m ≤ j → p.2 j = h j := by
  induction m with
  | zero => simp
  | succ m ih =>
    specialize ih (by omega)
    rw [List.range_succ, List.foldl_append]
    simp only [List.foldl_cons, List.foldl_nil]
    generalize (List.range m).foldl _ _ = p at ih ⊢
    obtain ⟨h1, h2, h3⟩ := ih
    refine ⟨?_, ?_, ?_⟩
    · rw [Finset.sum_range_succ, set_same]
      have : ∑ i ∈ range m, set p.2 m (dot p.1 (v m)) i • v i = ∑ i ∈ range m, p.2 i • v i := by
        refine Finset.sum_congr rfl fun i hi => ?_
        rw [set_ne _ _ (by have := Finset.mem_range.1 hi; omega)]
      rw [this]
      conv_lhs => rw [h1]
      module
    · intro j hj
      rw [hd.add, hd.smul, ho m j (by omega) (by omega)]
      by_cases hjm : j = m
      · subst hjm; simp
      · rw [if_neg (fun h => hjm h.symm), h2 j (by omega)]; simp
    · intro j hj
      rw [set_ne _ _ (by omega), h3 j (by omega)]

theorem reorth_aux {dot : E → E → K} (hd : IsDot dot) {v : Nat → E} (p : E × (Nat → K)) (m : Nat)
    (h0 : ∀ j, j < m → dot p.1 (v j) = 0) : reorth dot v m p = p := by
  unfold reorth
  induction m with
  | zero => simp
  | succ m ih =>
    rw [List.range_succ, List.foldl_append, ih (fun j hj => h0 j (by omega))]
    simp only [List.foldl_cons, List.foldl_nil]
    rw [hd.comm, h0 m (by omega)]
    refine Prod.ext ?_ ?_
    · simp
    · funext j
      simp only [set]
      split <;> simp_all

theorem ortho_spec {dot : E → E → K} (hd : IsDot dot) (sq : K → K) (re : Nat) {v : Nat → E} {k : Nat}
    (ho : Ortho dot v (k + 1)) (w : E) (h : Nat → K) :
    w = (ortho dot sq re v k w h).1 + ∑ i ∈ range (k + 1), (ortho dot sq re v k w h).2 i • v i ∧
    (∀ j, j < k + 1 → dot (ortho dot sq re v k w h).1 (v j) = 0) ∧
    (ortho dot sq re v k w h).2 (k + 1) =
      sq (dot (ortho dot sq re v k w h).1 (ortho dot sq re v k w h).1) := by
  obtain ⟨h1, h2, h3⟩ := mgs_aux hd ho w h (k + 1) le_rfl
  have key : ∀ q : E × (Nat → K), ortho dot sq re v k w h = q →
      q.1 = (mgs dot v k w h).1 ∧
      q.2 = set (mgs dot v k w h).2 (k + 1) (sq (dot (mgs dot v k w h).1 (mgs dot v k w h).1)) := by
    rintro q rfl
    unfold ortho
    simp only
    have hr : reorth dot v k ((mgs dot v k w h).1, set (mgs dot v k w h).2 (k + 1)
        (sq (dot (mgs dot v k w h).1 (mgs dot v k w h).1))) = ((mgs dot v k w h).1,
        set (mgs dot v k w h).2 (k + 1) (sq (dot (mgs dot v k w h).1 (mgs dot v k w h).1))) :=
      reorth_aux hd _ _ (fun j hj => h2 j (by omega))
    split
    · rw [hr]
      exact ⟨rfl, set_set _ _ _ _⟩
    · exact ⟨rfl, rfl⟩
  obtain ⟨e1, e2⟩ := key _ rfl
  rw [e1, e2]
  have hsum : ∑ i ∈ range (k + 1), set (mgs dot v k w h).2 (k + 1)
      (sq (dot (mgs dot v k w h).1 (mgs dot v k w h).1)) i • v i =
      ∑ i ∈ range (k + 1), (mgs dot v k w h).2 i • v i := by
    refine Finset.sum_congr rfl fun i hi => ?_
    rw [set_ne _ _ (by have := Finset.mem_range.1 hi; omega)]
  rw [hsum]
  exact ⟨h1, h2, by simp⟩

/-! ### Rotations -/

/-- The rotated basis: the last, still changing vector. -/
def qc (v : Nat → E) (c s : Nat → K) : Nat → E
  | 0 => v 0
  | i + 1 => s i • qc v c s i + c i • v (i + 1)

/-- The rotated basis: the vectors that no later rotation changes. -/
def qf (v : Nat → E) (c s : Nat → K) (i : Nat) : E := c i • qc v c s i - s i • v (i + 1)

theorem qc_congr {v v' : Nat → E} {c c' s s' : Nat → K} (k : Nat) (hv : ∀ i, i ≤ k → v i = v' i)
    (hc : ∀ i, i < k → c i = c' i) (hs : ∀ i, i < k → s i = s' i) : qc v c s k = qc v' c' s' k := by
  induction k with
  | zero => simp [qc, hv 0 le_rfl]
  | succ k ih =>
    simp only [qc]
    rw [ih (fun i hi => hv i (by omega)) (fun i hi => hc i (by omega)) (fun i hi => hs i (by omega)),
      hv (k + 1) le_rfl, hc k (by omega), hs k (by omega)]

theorem qf_congr {v v' : Nat → E} {c c' s s' : Nat → K} (k : Nat) (hv : ∀ i, i ≤ k + 1 → v i = v' i)
    (hc : ∀ i, i ≤ k → c i = c' i) (hs : ∀ i, i ≤ k → s i = s' i) : qf v c s k = qf v' c' s' k := by
  unfold qf
  rw [qc_congr k (fun i hi => hv i (by omega)) (fun i hi => hc i (by omega))
    (fun i hi => hs i (by omega)), hv (k + 1) le_rfl, hc k le_rfl, hs k le_rfl]

/-- One rotation of two coordinates. -/
theorem rot_eq {c s : K} (h : c * c + s * s = 1) (a b : K) (x y : E) :
    a • x + b • y = (c * a - s * b) • (c • x - s • y) + (s * a + c * b) • (s • x + c • y) := by
  have e1 : (c * a - s * b) * c + (s * a + c * b) * s = a := by linear_combination a * h
  have e2 : -((c * a - s * b) * s) + (s * a + c * b) * c = b := by linear_combination b * h
  calc a • x + b • y
      = ((c * a - s * b) * c + (s * a + c * b) * s) • x +
        (-((c * a - s * b) * s) + (s * a + c * b) * c) • y := by rw [e1, e2]
    _ = _ := by module

theorem givens_aux (v : Nat → E) (c s : Nat → K) (h : Nat → K) (m : Nat)
    (hr : ∀ i, i < m → c i * c i + s i * s i = 1) :
    ∑ i ∈ range (m + 1), h i • v i =
      ∑ i ∈ range m, givens c s m h i • qf v c s i + givens c s m h m • qc v c s m ∧
    ∀ i, m < i → givens c s m h i = h i := by
  induction m with
  | zero => simp [givens, qc]
  | succ m ih =>
    obtain ⟨h1, h2⟩ := ih (fun i hi => hr i (by omega))
    have hg : givens c s (m + 1) h = set (set (givens c s m h) m
        (c m * givens c s m h m - s m * givens c s m h (m + 1))) (m + 1)
        (s m * givens c s m h m + c m * givens c s m h (m + 1)) := by
      unfold givens
      rw [List.range_succ, List.foldl_append]
      rfl
    refine ⟨?_, ?_⟩
    · rw [Finset.sum_range_succ, h1, Finset.sum_range_succ, hg, set_same, set_ne _ _ (by omega : m ≠ m + 1),
        set_same, h2 (m + 1) (by omega)]
      have : ∑ i ∈ range m, set (set (givens c s m h) m
          (c m * givens c s m h m - s m * h (m + 1))) (m + 1)
          (s m * givens c s m h m + c m * h (m + 1)) i • qf v c s i =
          ∑ i ∈ range m, givens c s m h i • qf v c s i := by
        refine Finset.sum_congr rfl fun i hi => ?_
        have := Finset.mem_range.1 hi
        rw [set_ne _ _ (by omega), set_ne _ _ (by omega)]
      rw [this, add_assoc, add_assoc]
      congr 1
      exact rot_eq (hr m (by omega)) _ _ _ _
    · intro i hi
      rw [hg, set_ne _ _ (by omega), set_ne _ _ (by omega), h2 i (by omega)]

/-! ### Back substitution -/

theorem foldl_sub (f : Nat → K) (n : Nat) (a : K) :
    (List.range n).foldl (fun a t => a - f t) a = a - ∑ t ∈ range n, f t := by
  induction n with
  | zero => simp
  | succ n ih => rw [List.range_succ, List.foldl_append, ih, Finset.sum_range_succ]; simp; ring

theorem computeY_aux (H : Nat → Nat → K) (g : Nat → K) (k : Nat) (y : Nat → K)
    (hH : ∀ i, i < k → H i i ≠ 0) (m : Nat) (hm : m ≤ k) :
    ∀ i, k - m ≤ i → i < k →
      ∑ j ∈ Ico i k, H i j * (List.range m).foldl
        (fun y m =>
          set y (k - 1 - m) (((List.range (k - (k - 1 - m + 1))).foldl
            (fun a t => a - H (k - 1 - m) (k - 1 - m + 1 + t) * y (k - 1 - m + 1 + t))
              (g (k - 1 - m))) / H (k - 1 - m) (k - 1 - m))) y j = g i := by
  induction m with
  | zero => intro i h1 h2; omega
  | succ m ih =>
    intro i h1 h2
    specialize ih (by omega)
    rw [List.range_succ, List.foldl_append]
    simp only [List.foldl_cons, List.foldl_nil]
    generalize (List.range m).foldl _ _ = Y at ih ⊢
    by_cases hi : i = k - 1 - m
    · subst hi
      rw [foldl_sub (fun t => H (k - 1 - m) (k - 1 - m + 1 + t) * Y (k - 1 - m + 1 + t)),
        Finset.sum_eq_sum_Ico_succ_bot h2, set_same]
      have : ∑ j ∈ Ico (k - 1 - m + 1) k, H (k - 1 - m) j * set Y (k - 1 - m)
          ((g (k - 1 - m) - ∑ t ∈ range (k - (k - 1 - m + 1)),
            H (k - 1 - m) (k - 1 - m + 1 + t) * Y (k - 1 - m + 1 + t)) / H (k - 1 - m) (k - 1 - m)) j =
          ∑ t ∈ range (k - (k - 1 - m + 1)), H (k - 1 - m) (k - 1 - m + 1 + t) * Y (k - 1 - m + 1 + t) := by
        rw [Finset.sum_Ico_eq_sum_range]
        refine Finset.sum_congr rfl fun t _ => ?_
        rw [set_ne _ _ (by omega)]
      rw [this, mul_div_cancel₀ _ (hH _ h2)]
      ring
    · rw [← ih i (by omega) h2]
      refine Finset.sum_congr rfl fun j hj => ?_
      have := Finset.mem_Ico.1 hj
      rw [set_ne _ _ (by omega)]

/-- Back substitution solves the triangular system. -/
theorem computeY_spec (H : Nat → Nat → K) (g : Nat → K) (k : Nat) (y : Nat → K)
    (hH : ∀ i, i < k → H i i ≠ 0) (i : Nat) (hi : i < k) :
    ∑ j ∈ Ico i k, H i j * computeY H g k y j = g i :=
  computeY_aux H g k y hH k le_rfl i (by omega) hi

end Detran.Gmres
