import Verif.Model.Material
import Verif.Props.Util
import Mathlib.Order.Bounds.Basic
import Mathlib.Algebra.BigOperators.Intervals
import Mathlib.Algebra.BigOperators.Ring.Finset
import Mathlib.Algebra.BigOperators.Group.Finset.Basic
import Mathlib.Tactic.Ring

namespace Detran.Material

open Finset

theorem foldl_if_min (p : Nat → Prop) [DecidablePred p] (l : List Nat) (a : Nat) :
    let r := l.foldl (fun lo x => if p x then min x lo else lo) a
    r ≤ a ∧ (∀ x ∈ l, p x → r ≤ x) ∧ (r = a ∨ (r ∈ l ∧ p r)) := by
  induction l generalizing a with
  | nil => simp
  | cons y l ih =>
    intro r
    by_cases h : p y
    · have h2 := ih (min y a)
      have hr : r = l.foldl (fun lo x => if p x then min x lo else lo) (min y a) := by
        simp [r, h]
      rw [← hr] at h2
      obtain ⟨h3, h4, h5⟩ := h2
      refine ⟨by omega, ?_, ?_⟩
      · intro x hx hp
        rcases List.mem_cons.1 hx with rfl | hx
        · omega
        · exact h4 x hx hp
      · rcases h5 with h5 | h5
        · rcases Nat.le_total y a with h6 | h6
          · right
            rw [Nat.min_eq_left h6] at h5
            rw [h5]
            exact ⟨List.mem_cons_self, h⟩
          · left; omega
        · exact .inr ⟨List.mem_cons_of_mem _ h5.1, h5.2⟩
    · have h2 := ih a
      have hr : r = l.foldl (fun lo x => if p x then min x lo else lo) a := by
        simp [r, h]
      rw [← hr] at h2
      obtain ⟨h3, h4, h5⟩ := h2
      refine ⟨h3, ?_, ?_⟩
      · intro x hx hp
        rcases List.mem_cons.1 hx with rfl | hx
        · exact absurd hp h
        · exact h4 x hx hp
      · rcases h5 with h5 | h5
        · exact .inl h5
        · exact .inr ⟨List.mem_cons_of_mem _ h5.1, h5.2⟩

theorem foldl_if_max (p : Nat → Prop) [DecidablePred p] (l : List Nat) (a : Nat) :
    let r := l.foldl (fun lo x => if p x then max x lo else lo) a
    a ≤ r ∧ (∀ x ∈ l, p x → x ≤ r) ∧ (r = a ∨ (r ∈ l ∧ p r)) := by
  induction l generalizing a with
  | nil => simp
  | cons y l ih =>
    intro r
    by_cases h : p y
    · have h2 := ih (max y a)
      have hr : r = l.foldl (fun lo x => if p x then max x lo else lo) (max y a) := by
        simp [r, h]
      rw [← hr] at h2
      obtain ⟨h3, h4, h5⟩ := h2
      refine ⟨by omega, ?_, ?_⟩
      · intro x hx hp
        rcases List.mem_cons.1 hx with rfl | hx
        · omega
        · exact h4 x hx hp
      · rcases h5 with h5 | h5
        · rcases Nat.le_total a y with h6 | h6
          · right
            rw [Nat.max_eq_left h6] at h5
            rw [h5]
            exact ⟨List.mem_cons_self, h⟩
          · left; omega
        · exact .inr ⟨List.mem_cons_of_mem _ h5.1, h5.2⟩
    · have h2 := ih a
      have hr : r = l.foldl (fun lo x => if p x then max x lo else lo) a := by
        simp [r, h]
      rw [← hr] at h2
      obtain ⟨h3, h4, h5⟩ := h2
      refine ⟨h3, ?_, ?_⟩
      · intro x hx hp
        rcases List.mem_cons.1 hx with rfl | hx
        · exact absurd hp h
        · exact h4 x hx hp
      · rcases h5 with h5 | h5
        · exact .inl h5
        · exact .inr ⟨List.mem_cons_of_mem _ h5.1, h5.2⟩

variable {K : Type} [Field K] [LinearOrder K]

/-- Both bounds of one scan. -/
theorem scanBounds_spec (G M g : Nat) (hg : g < G) (s : Nat → Nat → K) :
    IsLeast {x | x = g ∨ (x < G ∧ ∃ m < M, 0 < s x m)} (scanBounds G M g s).1 ∧
    IsGreatest {x | x = g ∨ (x < G ∧ ∃ m < M, 0 < s x m)} (scanBounds G M g s).2 := by
  induction M with
  | zero =>
    simp [scanBounds, IsLeast, IsGreatest, lowerBounds, upperBounds]
  | succ M ih =>
    have e : scanBounds G (M + 1) g s =
        ((List.range g).foldl (fun lo gp => if s gp M > 0 then min gp lo else lo)
            (scanBounds G M g s).1,
         (List.range G).foldl (fun up gp => if s gp M > 0 then max gp up else up)
            (scanBounds G M g s).2) := by
      simp only [scanBounds, List.range_succ, List.foldl_append, List.foldl_cons,
        List.foldl_nil]
    rw [e]
    obtain ⟨⟨l1, l2⟩, ⟨u1, u2⟩⟩ := ih
    obtain ⟨a1, a2, a3⟩ := foldl_if_min (fun gp => s gp M > 0) (List.range g) (scanBounds G M g s).1
    obtain ⟨b1, b2, b3⟩ := foldl_if_max (fun gp => s gp M > 0) (List.range G) (scanBounds G M g s).2
    have l3 : (scanBounds G M g s).1 ≤ g := l2 (.inl rfl)
    refine ⟨⟨?_, ?_⟩, ⟨?_, ?_⟩⟩
    · rcases a3 with a3 | ⟨a3, a4⟩
      · simp only [a3]
        rcases l1 with l1 | ⟨l1, m, hm, l4⟩
        · exact .inl l1
        · exact .inr ⟨l1, m, by omega, l4⟩
      · exact .inr ⟨by have := List.mem_range.1 a3; omega, M, by omega, a4⟩
    · rintro x (rfl | ⟨hx, m, hm, hs⟩)
      · exact le_trans a1 l3
      · by_cases h : m = M
        · subst h
          by_cases hxg : x < g
          · exact a2 x (List.mem_range.2 hxg) hs
          · exact le_trans a1 (by omega)
        · exact le_trans a1 (l2 (.inr ⟨hx, m, by omega, hs⟩))
    · rcases b3 with b3 | ⟨b3, b4⟩
      · simp only [b3]
        rcases u1 with u1 | ⟨u1, m, hm, u4⟩
        · exact .inl u1
        · exact .inr ⟨u1, m, by omega, u4⟩
      · exact .inr ⟨List.mem_range.1 b3, M, by omega, b4⟩
    · rintro x (rfl | ⟨hx, m, hm, hs⟩)
      · exact le_trans (u2 (.inl rfl)) b1
      · by_cases h : m = M
        · subst h
          exact b2 x (List.mem_range.2 hx) hs
        · exact le_trans (u2 (.inr ⟨hx, m, by omega, hs⟩)) b1

/-- `range` over natural groups, increasing. -/
theorem groups_up (a b : Nat) (incl : Bool) (h : a < b) :
    groups a b incl = List.range' a (b - a + if incl then 1 else 0) := by
  unfold groups Util.range
  have h1 : (a : Int) < b := by exact_mod_cast h
  simp only [h1, if_true]
  have key : ∀ (n : Nat) (i : Nat),
      (Util.rangeLoop n (i : Int) 1).map Int.toNat = List.range' i n := by
    intro n
    induction n with
    | zero => intro i; simp [Util.rangeLoop]
    | succ n ih =>
      intro i
      have := ih (i + 1)
      simp only [Util.rangeLoop, List.map_cons, Int.toNat_natCast, List.range'_succ]
      rw [← this]
      push_cast
      rfl
  rw [key]
  congr 1
  cases incl <;> simp <;> omega

/-- `range` over natural groups, decreasing (`k` runs upwards; the list is reversed). -/
theorem groups_down (a b : Nat) (h : b ≤ a) :
    groups a b true = (List.range' b (a - b + 1)).reverse := by
  unfold groups Util.range
  have h1 : ¬ (a : Int) < b := by exact_mod_cast not_lt.2 h
  simp only [h1, if_false]
  have key : ∀ (n : Nat) (i : Nat),
      (Util.rangeLoop (n + 1) ((i + n : Nat) : Int) (-1)).map Int.toNat
        = (List.range' i (n + 1)).reverse := by
    intro n
    induction n with
    | zero => intro i; simp [Util.rangeLoop]
    | succ n ih =>
      intro i
      have h2 := ih i
      rw [Util.rangeLoop, List.map_cons, Int.toNat_natCast]
      have e : ((i + (n + 1) : Nat) : Int) + -1 = ((i + n : Nat) : Int) := by push_cast; omega
      rw [e, h2, List.range'_concat (s := i) (n := n + 1)]
      simp
  have := key (a - b) b
  rw [show b + (a - b) = a by omega] at this
  rw [← this]
  congr 2
  simp
  omega

theorem foldl_addCells (N : Nat) (l : List Nat) (f : Nat → Nat → K) (s : Nat → K) (c : Nat) :
    (l.foldl (fun s gp => addCells N (f gp) s) s) c =
      if c < N then s c + (l.map (fun gp => f gp c)).sum else s c := by
  induction l generalizing s with
  | nil => simp
  | cons x l ih =>
    rw [List.foldl_cons, ih]
    unfold addCells
    split
    · simp [add_assoc]
    · rfl

theorem foldl_addCells_if (N : Nat) (p : Nat → Prop) [DecidablePred p] (l : List Nat)
    (f : Nat → Nat → K) (s : Nat → K) (c : Nat) :
    (l.foldl (fun s gp => if p gp then s else addCells N (f gp) s) s) c =
      if c < N then s c + (l.map (fun gp => if p gp then 0 else f gp c)).sum else s c := by
  induction l generalizing s with
  | nil => simp
  | cons x l ih =>
    rw [List.foldl_cons, ih]
    by_cases h : p x
    · simp [h]
    · simp only [h, if_false]
      unfold addCells
      split
      · simp [h, add_assoc]
      · rfl

theorem sum_map_range' (a n : Nat) (f : Nat → K) :
    ((List.range' a n).map f).sum = ∑ i ∈ Finset.Ico a (a + n), f i := by
  induction n generalizing a with
  | zero => simp
  | succ n ih =>
    rw [List.range'_succ, List.map_cons, List.sum_cons, ih,
      Finset.sum_eq_sum_Ico_succ_bot (by omega : a < a + (n + 1))]
    congr 2
    congr 1
    omega

theorem sum_map_range (n : Nat) (f : Nat → K) :
    ((List.range n).map f).sum = ∑ i ∈ Finset.range n, f i := by
  rw [List.range_eq_range', sum_map_range', Finset.range_eq_Ico, Nat.zero_add]

/-- Inclusive groups between `a` and `b`, in either order. -/
theorem sum_groups_incl (a b : Nat) (f : Nat → K) :
    ((groups a b true).map f).sum = ∑ i ∈ Finset.Icc (min a b) (max a b), f i := by
  rcases Nat.lt_or_ge a b with h | h
  · rw [groups_up a b true h, sum_map_range']
    refine Finset.sum_congr ?_ fun _ _ => rfl
    ext x
    simp
    omega
  · rw [groups_down a b h, List.map_reverse, List.sum_reverse, sum_map_range']
    refine Finset.sum_congr ?_ fun _ _ => rfl
    ext x
    simp
    omega

/-- Exclusive groups. -/
theorem sum_groups_excl (a b : Nat) (f : Nat → K) :
    ((groups a b false).map f).sum =
      if a < b then ∑ i ∈ Finset.Ico a b, f i else ∑ i ∈ Finset.Ioc b a, f i := by
  rcases Nat.lt_or_ge a b with h | h
  · rw [groups_up a b false h, sum_map_range', if_pos h]
    refine Finset.sum_congr ?_ fun _ _ => rfl
    ext x
    simp
    omega
  · rw [if_neg (by omega)]
    rcases Nat.eq_or_lt_of_le h with rfl | h
    · have : groups b b false = [] := by
        simp [groups, Util.range, Util.rangeLoop]
      simp [this]
    · have e : groups a b false = groups a (b + 1) true := by
        unfold groups Util.range
        have h1 : ¬ (a : Int) < b := by exact_mod_cast not_lt.2 h.le
        have h2 : ¬ (a : Int) < ((b + 1 : Nat) : Int) := by
          exact_mod_cast not_lt.2 (Nat.succ_le_of_lt h)
        simp only [h1, h2, if_false]
        congr 2
        simp
        omega
      rw [e, sum_groups_incl]
      refine Finset.sum_congr ?_ fun _ _ => rfl
      ext x
      simp
      omega

end Detran.Material
