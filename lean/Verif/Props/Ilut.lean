import Verif.Model.Ilut
import Verif.Props.Dense
import Verif.Props.Solver
import Verif.Lemmas.Build
import Mathlib.Data.List.Sort

/-!
# Properties of the construction of the threshold ILU (C120)
-/

namespace Detran.Ilut

open Detran.Dense Detran.Matrix Detran.Solver Finset

variable {K : Type} [Field K] [LinearOrder K] [IsStrictOrderedRing K]

/-! ## Specification -/

/-- What `std::sort` by decreasing magnitude guarantees. -/
def SortsV (sv : List (Int × K) → List (Int × K)) : Prop :=
  ∀ l, (sv l).Perm l ∧ (sv l).Pairwise fun a b => |b.2| ≤ |a.2|

/-- What `std::sort` by column guarantees. -/
def SortsC (sc : List (Int × K) → List (Int × K)) : Prop :=
  ∀ l, (sc l).Perm l ∧ (sc l).Pairwise fun a b => a.1 ≤ b.1

/-- The row has its columns in order and inside the matrix. -/
def RowOK (n : Nat) (r : SRow K) : Prop :=
  r.n = n ∧ Sorted r.els ∧ ∀ e ∈ r.els, 0 ≤ e.1 ∧ e.1 < (n : Int)

/-- `l` is unit lower triangular, `u` upper triangular with nonzero diagonal, and their product is the table `a`. -/
structure IsLU (n : Nat) (a l u : Nat → Nat → K) : Prop where
  unit : ∀ i, l i i = 1
  lower : ∀ i j, i < j → l i j = 0
  upper : ∀ i j, j < i → u i j = 0
  pivot : ∀ i < n, u i i ≠ 0
  prod : ∀ i < n, ∀ j < n, ∑ m ∈ range n, l i m * u m j = a i j

/-! ## Rows -/

theorem find_none {r : SRow K} {c : Int} (h : r.find c = none) : ∀ e ∈ r.els, e.1 ≠ c := by
  unfold SRow.find at h
  rw [List.findIdx?_eq_none_iff] at h
  exact fun e he => by simpa using h e he

theorem find_some {r : SRow K} {c : Int} {p : Nat} (h : r.find c = some p) :
    ∃ e, r.els[p]? = some e ∧ e.1 = c ∧ p < r.els.length := by
  unfold SRow.find at h
  rw [List.findIdx?_eq_some_iff_getElem] at h
  obtain ⟨hp, h1, _⟩ := h
  exact ⟨r.els[p], List.getElem?_eq_getElem hp, by simpa using h1, hp⟩

theorem val_get {l : List (Int × K)} (hs : Sorted l) {p : Nat} {e : Int × K} (h : l[p]? = some e) : valAt l e.1 = e.2 := by
  induction l generalizing p with
  | nil => simp at h
  | cons x l ih =>
    have hs' := List.pairwise_cons.mp hs
    rw [valAt_cons]
    cases p with
    | zero =>
      simp only [List.getElem?_cons_zero, Option.some.injEq] at h
      subst h; simp
    | succ p =>
      rw [List.getElem?_cons_succ] at h
      have hm := List.mem_of_getElem? h
      rw [if_neg (ne_of_lt (hs'.1 e hm)), ih hs'.2 h]

theorem set_sorted {l : List (Int × K)} (hs : Sorted l) {p : Nat} {e : Int × K} (h : l[p]? = some e) (w : K) :
    Sorted (l.set p (e.1, w)) ∧ (∀ x ∈ l.set p (e.1, w), ∃ y ∈ l, y.1 = x.1) ∧
      ∀ c, valAt (l.set p (e.1, w)) c = if c = e.1 then w else valAt l c := by
  induction l generalizing p with
  | nil => simp at h
  | cons x l ih =>
    have hs' := List.pairwise_cons.mp hs
    cases p with
    | zero =>
      simp only [List.getElem?_cons_zero, Option.some.injEq] at h
      subst h
      rw [List.set_cons_zero]
      refine ⟨List.pairwise_cons.mpr ⟨hs'.1, hs'.2⟩, fun y hy => ?_, fun c => ?_⟩
      · rcases List.mem_cons.mp hy with rfl | hy
        · exact ⟨x, List.mem_cons_self, rfl⟩
        · exact ⟨y, List.mem_cons_of_mem _ hy, rfl⟩
      · rw [valAt_cons, valAt_cons]
        by_cases hc : c = x.1
        · simp [hc]
        · simp [hc, Ne.symm hc]
    | succ p =>
      rw [List.getElem?_cons_succ] at h
      obtain ⟨h1, h2, h3⟩ := ih hs'.2 h
      have hm := List.mem_of_getElem? h
      rw [List.set_cons_succ]
      refine ⟨List.pairwise_cons.mpr ⟨fun y hy => ?_, h1⟩, fun y hy => ?_, fun c => ?_⟩
      · obtain ⟨z, hz, hzy⟩ := h2 y hy
        rw [← hzy]; exact hs'.1 z hz
      · rcases List.mem_cons.mp hy with rfl | hy
        · exact ⟨y, List.mem_cons_self, rfl⟩
        · obtain ⟨z, hz, hzy⟩ := h2 y hy
          exact ⟨z, List.mem_cons_of_mem _ hz, hzy⟩
      · rw [valAt_cons, valAt_cons, h3]
        by_cases hx : x.1 = c
        · rw [if_pos hx, if_pos hx, if_neg]
          intro hc
          have := hs'.1 e hm
          omega
        · rw [if_neg hx, if_neg hx]

theorem insertRange_ok {n : Nat} {q r : SRow K} (hq : RowOK n q) (hr : RowOK n r) (a b : Int) (v : K) :
    RowOK n (q.insertRange a b r v true).1 := by
  have hrange : ∀ e ∈ r.range a b, e ∈ r.els := by
    intro e he
    have hsub : ∀ l : List (Int × K), ∀ e ∈ rangeBegin a b l, e ∈ l := by
      intro l
      induction l with
      | nil => simp [rangeBegin]
      | cons x l ih =>
        intro e he
        simp only [rangeBegin] at he
        split_ifs at he
        · simp at he
        · exact he
        · exact List.mem_cons_of_mem _ (ih e he)
    unfold SRow.range at he
    split at he
    · simp at he
    · next x l hx =>
      refine hsub _ e ?_
      rw [hx]
      rcases List.mem_cons.mp he with rfl | he
      · exact List.mem_cons_self
      · exact List.mem_cons_of_mem _ ((List.takeWhile_sublist _).subset he)
  simp only [SRow.insertRange]
  generalize r.range a b = l at hrange
  induction l generalizing q with
  | nil => exact hq
  | cons e l ih =>
    rw [List.foldl_cons]
    refine ih ?_ (fun x hx => hrange x (List.mem_cons_of_mem _ hx))
    have key := C14_insert_effect q hq.2.1 ⟨e.1, e.2 * v, true⟩
    refine ⟨?_, (key 0).1, ?_⟩
    · simp only [SRow.insert]; split_ifs <;> exact hq.1
    · intro x hx
      simp only [SRow.insert, Bool.not_true, Bool.false_and, Bool.false_eq_true, if_false] at hx
      rcases insLoop_cols _ _ _ _ x hx with h | ⟨y, hy, hyx⟩
      · rw [h]; exact hr.2.2 e (hrange e List.mem_cons_self)
      · rw [← hyx]; exact hq.2.2 y hy

theorem present {l : List (Int × K)} {c : Int} (h : valAt l c ≠ 0) : ∃ e ∈ l, e.1 = c := by
  by_contra hc
  push Not at hc
  exact h (valAt_absent l c hc)

/-- In a sorted row with columns from zero, a position is at most its column. -/
theorem pos_le {n : Nat} {r : SRow K} (h : RowOK n r) {p : Nat} {e : Int × K} (he : r.els[p]? = some e) : (p : Int) ≤ e.1 := by
  have hs := List.pairwise_iff_getElem.mp h.2.1
  induction p generalizing e with
  | zero => exact_mod_cast (h.2.2 e (List.mem_of_getElem? he)).1
  | succ p ih =>
    obtain ⟨hp, rfl⟩ := List.getElem?_eq_some_iff.mp he
    have h1 := ih (List.getElem?_eq_getElem (by omega : p < r.els.length))
    have h2 := hs p (p + 1) (by omega) hp (by omega)
    push_cast
    omega

theorem length_le {n : Nat} {r : SRow K} (h : RowOK n r) : r.els.length ≤ n := by
  by_contra hc
  have hlt : n < r.els.length := by omega
  have := pos_le h (List.getElem?_eq_getElem hlt)
  have h2 := (h.2.2 _ (List.getElem_mem hlt)).2
  omega

/-! ## Elimination without a threshold -/

/-- The row after `k` passes: factors before column `k`, what is left to factor from there on. -/
def RowInv (n : Nat) (l u : Nat → Nat → K) (i k : Nat) (r : SRow K) : Prop :=
  RowOK n r ∧ ∀ j < n, valAt r.els (j : Int) = if j < k then l i j else ∑ m ∈ Ico k n, l i m * u m j

/-- A finished row. -/
def Done (n : Nat) (l u : Nat → Nat → K) (i : Nat) (r : SRow K) : Prop :=
  RowOK n r ∧ ∀ j < n, valAt r.els (j : Int) = if j < i then l i j else u i j

theorem dropT_zero {stray : Option K} {r : SRow K} {idx : Nat} (h : stray ≠ none ∨ ∃ e ∈ r.els, e.1 = (idx : Int)) :
    dropT stray r idx 0 = some (r, true) := by
  have hv : ∃ v, (r.at (idx : Int)).or stray = some v := by
    rcases h with h | h
    · cases hs : stray with
      | none => exact absurd hs h
      | some v => cases r.at (idx : Int) <;> simp
    · rw [(C14_read r _).1 h]; simp
  obtain ⟨v, hv⟩ := hv
  rw [dropT, hv, Option.bind_some, if_neg (not_lt.mpr (abs_nonneg v))]

theorem elim_step {n : Nat} {a l u : Nat → Nat → K} (h : IsLU n a l u) {stray : Option K} {rows : List (SRow K)} {i : Nat} (hi : i < n)
    (hlen : rows.length = i) (hrows : ∀ (k : Nat) r, rows[k]? = some r → Done n l u k r)
    (hj : stray ≠ none ∨ ∀ k < i, l i k ≠ 0) {k : Nat} (hk : k < i) {r : SRow K} (hr : RowInv n l u i k r) :
    ∃ r', elim stray n 0 rows r k = some r' ∧ RowInv n l u i (k + 1) r' := by
  obtain ⟨hok, hval⟩ := hr
  have hkn : k < n := by omega
  have hvk : valAt r.els (k : Int) = l i k * u k k := by
    rw [hval k hkn, if_neg (lt_irrefl k), sum_eq_sum_Ico_succ_bot hkn, sum_eq_zero, add_zero]
    intro m hm
    rw [mem_Ico] at hm
    rw [h.upper m k (by omega), mul_zero]
  have hpiv := h.pivot k hkn
  unfold elim
  cases hf : r.find (k : Int) with
  | none =>
    have h0 : l i k = 0 := by
      have := valAt_absent r.els _ (find_none hf)
      rw [hvk] at this
      exact (mul_eq_zero.mp this).resolve_right hpiv
    refine ⟨r, rfl, hok, fun j hjn => ?_⟩
    rw [hval j hjn]
    by_cases h1 : j < k
    · rw [if_pos h1, if_pos (by omega)]
    · rw [if_neg h1]
      by_cases h2 : j = k
      · subst h2
        have := hvk.symm.trans ((hval j hjn).trans (if_neg h1))
        rw [if_pos (by omega), ← this, h0, zero_mul]
      · rw [if_neg (by omega), sum_eq_sum_Ico_succ_bot hkn, h0, zero_mul, zero_add]
  | some p =>
    obtain ⟨e, he, hek, hp⟩ := find_some hf
    obtain ⟨ru, hru⟩ : ∃ ru, rows[k]? = some ru := ⟨rows[k]'(by omega), List.getElem?_eq_getElem (by omega)⟩
    obtain ⟨huok, huval⟩ := hrows k ru hru
    have hd : valAt ru.els (k : Int) = u k k := by rw [huval k hkn, if_neg (lt_irrefl k)]
    have hat : ru.at (k : Int) = some (u k k) := by
      rw [(C14_read ru _).1 (present (by rw [hd]; exact hpiv)), hd]
    have hev : e.2 = l i k * u k k := by rw [← hvk, ← hek, val_get hok.2.1 he]
    have hq : e.2 / u k k = l i k := by rw [hev]; field_simp
    obtain ⟨s1, s2, s3⟩ := set_sorted hok.2.1 he (e.2 / u k k)
    have hok' : RowOK n { r with els := r.els.set p (e.1, e.2 / u k k) } :=
      ⟨hok.1, s1, fun x hx => by
        obtain ⟨y, hy, hyx⟩ := s2 x hx
        rw [← hyx]; exact hok.2.2 y hy⟩
    have hset : (r.els.set p (e.1, e.2 / u k k))[p]? = some (e.1, e.2 / u k k) := by
      rw [List.getElem?_set_self hp]
    have hdrop : dropT stray { r with els := r.els.set p (e.1, e.2 / u k k) } p 0 =
        some ({ r with els := r.els.set p (e.1, e.2 / u k k) }, true) := by
      refine dropT_zero ?_
      rcases hj with hj | hj
      · exact Or.inl hj
      · refine Or.inr (present ?_)
        have hpk : (p : Int) ≤ e.1 := pos_le hok he
        have hpk' : p ≤ k := by omega
        dsimp only
        rw [s3, hq]
        by_cases hpe : (p : Int) = e.1
        · rw [if_pos hpe]; exact hj k hk
        · rw [if_neg hpe, hval p (by omega), if_pos (by omega)]
          exact hj p (by omega)
    simp only [hru, Option.bind_some, hat, he, hdrop, if_true, hset, Option.map_some]
    refine ⟨_, rfl, insertRange_ok hok' huok _ _ _, fun j hjn => ?_⟩
    rw [C14_add_range _ _ hok'.2.1 huok.2.1 _ _ (by omega) (fun x hx => by have := (huok.2.2 x hx).2; omega)]
    dsimp only
    rw [s3, hq, hek]
    by_cases h1 : j < k
    · rw [if_neg (by omega), if_neg (by omega), add_zero, hval j hjn, if_pos h1, if_pos (by omega)]
    · by_cases h2 : j = k
      · subst h2
        rw [if_pos rfl, if_neg (by omega), if_pos (by omega), add_zero]
      · rw [if_neg (by omega), if_pos (by omega), if_neg (by omega), hval j hjn, if_neg h1, huval j hjn, if_neg h1,
          sum_eq_sum_Ico_succ_bot hkn]
        ring

theorem perm_sorted_eq {l m : List (Int × K)} (hl : Sorted l) (hp : m.Perm l) (hm : m.Pairwise fun a b => a.1 ≤ b.1) : m = l := by
  have hnd : ∀ x ∈ l, ∀ y ∈ l, x.1 = y.1 → x = y := by
    intro x hx y hy hxy
    obtain ⟨i, hi⟩ := List.getElem?_of_mem hx
    obtain ⟨j, hj⟩ := List.getElem?_of_mem hy
    have h1 := val_get hl hi
    have h2 := val_get hl hj
    rw [hxy] at h1
    exact Prod.ext hxy (h1.symm.trans h2)
  refine hp.eq_of_pairwise (le := fun a b => a.1 ≤ b.1) (fun a b ha hb h1 h2 => ?_) hm (hl.imp fun h => le_of_lt h)
  exact hnd a (hp.subset ha) b hb (by omega)

theorem sortRange_perm {sv : List (Int × K) → List (Int × K)} (hv : ∀ l, (sv l).Perm l) (r : SRow K) (a b : Int) :
    (sortRange sv r a b).els.Perm r.els ∧ (sortRange sv r a b).n = r.n := by
  refine ⟨?_, rfl⟩
  unfold sortRange
  dsimp only
  generalize r.els.length - (rangeBegin a b r.els).length = s
  generalize (r.range a b).length = len
  have h1 : (r.els.take s ++ sv ((r.els.drop s).take len) ++ r.els.drop (s + len)).Perm
      (r.els.take s ++ (r.els.drop s).take len ++ r.els.drop (s + len)) :=
    ((List.Perm.refl _).append (hv _)).append (List.Perm.refl _)
  refine h1.trans (List.Perm.of_eq ?_)
  rw [List.append_assoc, ← List.drop_drop, List.take_append_drop, List.take_append_drop]

theorem limit_all {sv sc : List (Int × K) → List (Int × K)} (hv : SortsV sv) (hc : SortsC sc) {n : Nat} {r : SRow K} (hr : RowOK n r)
    (d p : Nat) (hp : n ≤ p) : limit sv sc r d p = r := by
  have hlen := length_le hr
  have hcl : countLower r d ≤ r.els.length := List.length_filter_le _ _
  obtain ⟨h1, h2⟩ := sortRange_perm (fun l => (hv l).1) r 0 d
  obtain ⟨h3, h4⟩ := sortRange_perm (fun l => (hv l).1) (sortRange sv r 0 d) (d + 1) r.n
  unfold limit
  dsimp only
  rw [if_neg (by omega), if_neg (by omega)]
  have : sc (sortRange sv (sortRange sv r 0 d) (d + 1) r.n).els = r.els :=
    perm_sorted_eq hr.2.1 ((hc _).1.trans (h3.trans h1)) (hc _).2
  rw [this, h4.trans h2]

theorem elim_loop {n : Nat} {a l u : Nat → Nat → K} (h : IsLU n a l u) {stray : Option K} {rows : List (SRow K)} {i : Nat} (hi : i < n)
    (hlen : rows.length = i) (hrows : ∀ (k : Nat) r, rows[k]? = some r → Done n l u k r)
    (hj : stray ≠ none ∨ ∀ k < i, l i k ≠ 0) {r : SRow K} (hr : RowInv n l u i 0 r) (k : Nat) (hk : k ≤ i) :
    ∃ r', loop (elim stray n 0 rows) r (List.range k) = some r' ∧ RowInv n l u i k r' := by
  induction k with
  | zero => exact ⟨r, rfl, hr⟩
  | succ k ih =>
    obtain ⟨r', h1, h2⟩ := ih (by omega)
    obtain ⟨r'', h3, h4⟩ := elim_step h hi hlen hrows hj (by omega) h2
    exact ⟨r'', by rw [loop_succ, h1]; exact h3, h4⟩

theorem factor_loop {n p : Nat} {a l u : Nat → Nat → K} (h : IsLU n a l u) {stray : Option K}
    {sv sc : List (Int × K) → List (Int × K)} (hv : SortsV sv) (hc : SortsC sc) (hp : n ≤ p)
    (hj : stray ≠ none ∨ ∀ i < n, ∀ k < i, l i k ≠ 0) {A : Nat → SRow K} (hA : ∀ i < n, RowOK n (A i))
    (hAv : ∀ i < n, ∀ j < n, valAt (A i).els (j : Int) = a i j) (k : Nat) (hk : k ≤ n) :
    ∃ rows, loop (fun rows i => (factorRow stray sv sc n p 0 rows (A i)).map fun r => rows ++ [r]) [] (List.range k) = some rows ∧
      rows.length = k ∧ ∀ (i : Nat) r, rows[i]? = some r → Done n l u i r := by
  induction k with
  | zero => exact ⟨[], rfl, rfl, fun i r hr => by simp at hr⟩
  | succ k ih =>
    obtain ⟨rows, h1, h2, h3⟩ := ih (by omega)
    have hkn : k < n := by omega
    have h0 : RowInv n l u k 0 (A k) := by
      refine ⟨hA k hkn, fun j hjn => ?_⟩
      rw [hAv k hkn j hjn, ← h.prod k hkn j hjn, if_neg (by omega), range_eq_Ico]
    obtain ⟨r, h4, hok, hval⟩ := elim_loop h hkn h2 h3 (hj.imp id fun f => f k hkn) h0 k (le_refl _)
    have hdone : Done n l u k r := by
      refine ⟨hok, fun j hjn => ?_⟩
      rw [hval j hjn]
      by_cases h5 : j < k
      · rw [if_pos h5, if_pos h5]
      · rw [if_neg h5, if_neg h5, sum_eq_sum_Ico_succ_bot hkn, h.unit, one_mul, sum_eq_zero, add_zero]
        intro m hm
        rw [mem_Ico] at hm
        rw [h.lower k m (by omega), zero_mul]
    refine ⟨rows ++ [r], ?_, by simp [h2], fun i s hs => ?_⟩
    · rw [loop_succ, h1, Option.bind_some, factorRow, h2, h4, Option.bind_some, dropP, if_neg (lt_irrefl _), Option.map_some,
        limit_all hv hc hok k p hp, Option.map_some]
    · by_cases hik : i < k
      · rw [List.getElem?_append_left (by omega)] at hs
        exact h3 i s hs
      · by_cases hie : i = k
        · subst hie
          rw [List.getElem?_append_right (by omega), h2, Nat.sub_self] at hs
          simp only [List.getElem?_cons_zero, Option.some.injEq] at hs
          subst hs; exact hdone
        · rw [List.getElem?_eq_none (by simp; omega)] at hs
          simp at hs

/-- C120, no threshold and room for whole rows: if the matrix has a factorization into unit lower and upper triangular factors
    with nonzero pivots, the rows computed hold exactly these factors, whatever order the sorts give equal values — provided
    that the stray reads of `drop_t` are harmless or do not happen, the latter for factors without zeros below the diagonal. -/
theorem C120_factors_partial {n p : Nat} {a l u : Nat → Nat → K} (h : IsLU n a l u) {stray : Option K}
    {sv sc : List (Int × K) → List (Int × K)} (hv : SortsV sv) (hc : SortsC sc) (hp : n ≤ p)
    (hj : stray ≠ none ∨ ∀ i < n, ∀ k < i, l i k ≠ 0) {A : Nat → SRow K} (hA : ∀ i < n, RowOK n (A i))
    (hAv : ∀ i < n, ∀ j < n, valAt (A i).els (j : Int) = a i j) :
    ∃ rows, factor stray sv sc n p 0 A = some rows ∧ rows.length = n ∧
      ∀ (i : Nat) r, rows[i]? = some r → RowOK n r ∧ ∀ j < n, valAt r.els (j : Int) = if j < i then l i j else u i j :=
  factor_loop h hv hc hp hj hA hAv n (le_refl _)

/-! ## The stored matrix and its application -/

theorem sum_delta {l : List (Int × K)} (hs : Sorted l) (h0 : ∀ e ∈ l, 0 ≤ e.1) (j : Nat) :
    (l.map fun e => e.2 * if e.1.toNat = j then 1 else 0).sum = valAt l (j : Int) := by
  induction l with
  | nil => simp [valAt]
  | cons x l ih =>
    have hs' := List.pairwise_cons.mp hs
    rw [List.map_cons, List.sum_cons, valAt_cons, ih hs'.2 fun e he => h0 e (List.mem_cons_of_mem _ he)]
    have hx := h0 x List.mem_cons_self
    by_cases h : x.1 = (j : Int)
    · rw [if_pos (by omega), if_pos h, mul_one, valAt_absent l _ fun e he => by have := hs'.1 e he; omega, add_zero]
    · rw [if_neg (by omega), if_neg h, mul_zero, zero_add]

theorem copyOps_row (rows : List (SRow K)) (i : Nat) (hi : i < rows.length) :
    (copyOps rows).filter (fun o => o.row = i) = (rows[i]).els.map fun e => ⟨i, e.1.toNat, e.2, false⟩ := by
  unfold copyOps
  rw [filter_flatMap_unique _ _ _ i List.nodup_range (List.mem_range.mpr hi)]
  · rw [List.getElem?_eq_getElem hi, Option.map_some, Option.getD_some, List.filter_eq_self]
    intro o ho
    obtain ⟨e, _, rfl⟩ := List.mem_map.mp ho
    simp
  · intro k _ hk
    rw [List.filter_eq_nil_iff]
    intro o ho
    obtain ⟨e, _, rfl⟩ := List.mem_map.mp ho
    simpa using hk

theorem copyOps_mem {rows : List (SRow K)} {o : Matrix.One K} (h : o ∈ copyOps rows) :
    ∃ (i : Nat) (hi : i < rows.length), ∃ e ∈ (rows[i]).els, o = ⟨i, e.1.toNat, e.2, false⟩ := by
  unfold copyOps at h
  obtain ⟨i, hi, ho⟩ := List.mem_flatMap.mp h
  have hi' := List.mem_range.mp hi
  rw [List.getElem?_eq_getElem hi', Option.map_some, Option.getD_some] at ho
  obtain ⟨e, he, rfl⟩ := List.mem_map.mp ho
  exact ⟨i, hi', e, he, rfl⟩

/-- Copying rows that fit into the stored matrix gives a matrix with these entries. -/
theorem copy_ok {n p : Nat} {rows : List (SRow K)} (hlen : rows.length = n) (hrows : ∀ (i : Nat) r, rows[i]? = some r → RowOK n r)
    (hcap : ∀ (i : Nat) r, rows[i]? = some r → r.els.length ≤ 2 * p + 1)
    (hne : ∀ (i : Nat) r, rows[i]? = some r → r.els ≠ []) (srt : List (Trip K) → List (Trip K)) (hs : IsSort srt) :
    ∃ B bs C, runOnes (preallocate n n fun _ => 2 * p + 1) (copyOps rows) = .ok (B, bs) ∧ B.assemble srt = some C ∧
      C.m = n ∧ WF C ∧ ∀ (i : Nat) r, rows[i]? = some r → ∀ j < n, entry C i j = valAt r.els (j : Int) := by
  have hadd : ∀ o ∈ copyOps rows, o.add = false := by
    intro o ho
    obtain ⟨i, _, e, _, rfl⟩ := copyOps_mem ho
    rfl
  have hin : InRange n n (copyOps rows) := by
    intro o ho
    obtain ⟨i, hi, e, he, rfl⟩ := copyOps_mem ho
    have := (hrows i _ (List.getElem?_eq_getElem hi)).2.2 e he
    exact ⟨by dsimp only; omega, by dsimp only; omega⟩
  have hcols : ∀ (i : Nat) (hi : i < rows.length), colsIn (copyOps rows) i = (rows[i]).els.map fun e => e.1.toNat := by
    intro i hi
    rw [colsIn, copyOps_row rows i hi, List.map_map]
    rfl
  have hcols0 : ∀ i, rows.length ≤ i → colsIn (copyOps rows) i = [] := by
    intro i hi
    rw [colsIn, List.map_eq_nil_iff, List.filter_eq_nil_iff]
    intro o ho
    obtain ⟨k, hk, e, _, rfl⟩ := copyOps_mem ho
    simp only [decide_eq_true_eq]
    omega
  have hc : ∀ i, (colsIn (copyOps rows) i).length ≤ 2 * p + 1 := by
    intro i
    by_cases hi : i < rows.length
    · rw [hcols i hi, List.length_map]
      exact hcap i _ (List.getElem?_eq_getElem hi)
    · rw [hcols0 i (by omega)]; simp
  obtain ⟨B, C, h1, h2, h3, h4, h5⟩ := build_ok srt hs n n (fun _ => 2 * p + 1) (copyOps rows) [] hadd (by simp)
    (by rw [List.append_nil]; exact hin) (fun i => by
      have := hc i
      simpa [colsIn] using this) (fun i hi => by
      rw [hcols i (by omega)]
      simpa using hne i _ (List.getElem?_eq_getElem (by omega : i < rows.length)))
  rw [List.append_nil] at h1 h5
  have hwf : WF C := by
    refine wf_assembled srt hs n _ _ hin B _ h1 C h2 fun i hi => ?_
    unfold storedCols
    rw [(specRun_inserts _ _ _ hadd (fun i => by simpa using hc i)).2 i, List.nil_append, hcols i (by omega)]
    have hr := hrows i _ (List.getElem?_eq_getElem (by omega : i < rows.length))
    refine List.Pairwise.map _ (fun x y hxy => hxy) ?_
    refine hr.2.1.imp_of_mem fun {x y} hx hy hlt heq => ?_
    have h1 := hr.2.2 x hx
    have h2 := hr.2.2 y hy
    omega
  refine ⟨B, _, C, h1, h2, h3, hwf, fun i r hr j hj => ?_⟩
  obtain ⟨hi, rfl⟩ := List.getElem?_eq_some_iff.mp hr
  have hm := h5 (fun m => if m = j then 1 else 0) i (by omega)
  rw [multiply_entry hwf _ i (by omega)] at hm
  have he : ∑ m ∈ range C.m, entry C i m * (if m = j then (1 : K) else 0) = entry C i j := by
    simp only [mul_ite, mul_one, mul_zero]
    rw [sum_ite_eq', if_pos (mem_range.mpr (by omega))]
  rw [he] at hm
  rw [hm, applied, copyOps_row rows i hi, List.map_map]
  exact sum_delta (hrows i _ hr).2.1 (fun e he => ((hrows i _ hr).2.2 e he).1) j

/-- C120, the complete factorization solves: under the hypotheses of `C120_factors_partial` the object is constructed, and
    applying it to a vector gives the solution of the system with the matrix itself. -/
theorem C120_solves_partial {n p : Nat} {a l u : Nat → Nat → K} (h : IsLU n a l u) {stray : Option K}
    {sv sc : List (Int × K) → List (Int × K)} (hv : SortsV sv) (hc : SortsC sc) (srt : List (Trip K) → List (Trip K)) (hs : IsSort srt)
    (hp : n ≤ p) (hj : stray ≠ none ∨ ∀ i < n, ∀ k < i, l i k ≠ 0) {A : Nat → SRow K} (hA : ∀ i < n, RowOK n (A i))
    (hAv : ∀ i < n, ∀ j < n, valAt (A i).els (j : Int) = a i j) :
    ∃ P, ilut stray sv sc srt n p 0 A = some P ∧
      ∀ b x0 : Nat → K, ∀ i < n, ∑ j ∈ range n, a i j * ilutApply P b x0 j = b i := by
  obtain ⟨rows, h1, h2, h3⟩ := C120_factors_partial h hv hc hp hj hA hAv
  have hdiag : ∀ (i : Nat) r, rows[i]? = some r → valAt r.els (i : Int) ≠ 0 := by
    intro i r hr
    have hi : i < n := by have := (List.getElem?_eq_some_iff.mp hr).1; omega
    rw [(h3 i r hr).2 i hi, if_neg (lt_irrefl i)]
    exact h.pivot i hi
  obtain ⟨B, bs, C, h4, h5, hm, hwf, hent⟩ := copy_ok h2 (fun i r hr => (h3 i r hr).1)
    (fun i r hr => by have := length_le (h3 i r hr).1; omega)
    (fun i r hr => by
      obtain ⟨e, he, _⟩ := present (hdiag i r hr)
      exact List.ne_nil_of_mem he) srt hs (p := p)
  refine ⟨C, by rw [ilut, h1, Option.bind_some, h4]; exact h5, fun b x0 i hi => ?_⟩
  have hE : ∀ i < n, ∀ j < n, entry C i j = if j < i then l i j else u i j := by
    intro i hi j hj
    have hr := List.getElem?_eq_getElem (by omega : i < rows.length)
    rw [hent i _ hr j hj, (h3 i _ hr).2 j hj]
  have key := C15_ilut_apply hwf (fun i hi => by
    rw [hE i (by omega) i (by omega), if_neg (lt_irrefl i)]
    exact h.pivot i (by omega)) b x0 i (by omega)
  rw [← key]
  generalize ilutApply C b x0 = x
  have hU : ∀ m < n, upperMul C x m = ∑ j ∈ range n, u m j * x j := by
    intro m hmn
    rw [upperMul, hm, range_eq_Ico, ← sum_Ico_consecutive _ (Nat.zero_le m) (le_of_lt hmn),
      sum_eq_zero (s := Ico 0 m), zero_add]
    · refine sum_congr rfl fun j hj => ?_
      rw [mem_Ico] at hj
      rw [hE m hmn j hj.2, if_neg (by omega)]
    · intro j hj
      rw [mem_Ico] at hj
      rw [h.upper m j hj.2, zero_mul]
  have hL : lowerMul C (upperMul C x) i = ∑ m ∈ range n, l i m * upperMul C x m := by
    rw [lowerMul, range_eq_Ico, range_eq_Ico, ← sum_Ico_consecutive (fun m => l i m * upperMul C x m) (Nat.zero_le i) (le_of_lt hi),
      sum_eq_sum_Ico_succ_bot hi, h.unit, one_mul, sum_eq_zero (s := Ico (i + 1) n), add_zero]
    · congr 1
      refine sum_congr rfl fun j hj => ?_
      rw [mem_Ico] at hj
      rw [hE i hi j (by omega), if_pos hj.2]
    · intro m hm'
      rw [mem_Ico] at hm'
      rw [h.lower i m (by omega), zero_mul]
  rw [hL]
  have e1 : ∀ j ∈ range n, a i j * x j = ∑ m ∈ range n, l i m * (u m j * x j) := by
    intro j hj
    rw [← h.prod i hi j (mem_range.mp hj), sum_mul]
    exact sum_congr rfl fun m _ => by ring
  rw [sum_congr rfl e1, sum_comm]
  refine sum_congr rfl fun m hm' => ?_
  rw [hU m (mem_range.mp hm'), mul_sum]

/-! ## What goes wrong -/

theorem loop_none_of {S : Type} (g : S → Nat → Option S) (s : S) (k m : Nat) (hk : k < m)
    (h : ∀ s', loop g s (List.range k) = some s' → g s' k = none) : loop g s (List.range m) = none := by
  induction m with
  | zero => omega
  | succ m ih =>
    rw [loop_succ]
    by_cases e : k = m
    · subst e
      cases hs : loop g s (List.range k) with
      | none => rfl
      | some s' => exact h s' hs
    · rw [ih (by omega)]; rfl

theorem factor_length {stray : Option K} {sv sc : List (Int × K) → List (Int × K)} {n p : Nat} {t : K} {A : Nat → SRow K} (k : Nat) :
    ∀ rows, loop (fun rows i => (factorRow stray sv sc n p t rows (A i)).map fun r => rows ++ [r]) [] (List.range k) = some rows →
      rows.length = k := by
  induction k with
  | zero => intro rows h; simp [loop] at h; simp [← h]
  | succ k ih =>
    intro rows h
    rw [loop_succ] at h
    cases hs : loop (fun rows i => (factorRow stray sv sc n p t rows (A i)).map fun r => rows ++ [r]) [] (List.range k) with
    | none => rw [hs] at h; simp at h
    | some s =>
      rw [hs, Option.bind_some] at h
      cases hf : factorRow stray sv sc n p t s (A k) with
      | none => rw [hf] at h; simp at h
      | some r =>
        rw [hf, Option.map_some, Option.some.injEq] at h
        rw [← h, List.length_append, ih s hs, List.length_singleton]

/-- C120, sparse matrices: if in some row the first stored column is neither column zero nor on or above the diagonal, the
    construction reads outside the row, whatever the levels, the threshold and the rest of the matrix.  Rows two and later of
    a tridiagonal matrix are such rows. -/
theorem C120_sparse_undefined {sv sc : List (Int × K) → List (Int × K)} (srt : List (Trip K) → List (Trip K)) {n p : Nat} (t : K)
    {A : Nat → SRow K} {i c : Nat} (hi : i < n) (hA : RowOK n (A i)) {v : K} (h0 : (A i).els[0]? = some ((c : Int), v)) (hc : 0 < c)
    (hci : c < i) : ilut none sv sc srt n p t A = none := by
  have hge : ∀ e ∈ (A i).els, (c : Int) ≤ e.1 := by
    intro e he
    cases hl : (A i).els with
    | nil => rw [hl] at he; simp at he
    | cons x l =>
      have hs := hA.2.1
      rw [hl] at h0 hs he
      simp only [List.getElem?_cons_zero, Option.some.injEq] at h0
      rcases List.mem_cons.mp he with rfl | he
      · rw [h0]
      · have := (List.pairwise_cons.mp hs).1 e he
        rw [h0] at this
        dsimp only at this
        omega
  have hnone : ∀ k < c, (A i).find (k : Int) = none := by
    intro k hk
    unfold SRow.find
    rw [List.findIdx?_eq_none_iff]
    intro e he
    have := hge e he
    simp only [decide_eq_false_iff_not]
    omega
  have hfind : (A i).find (c : Int) = some 0 := by
    unfold SRow.find
    cases hl : (A i).els with
    | nil => rw [hl] at h0; simp at h0
    | cons x l =>
      rw [hl] at h0
      simp only [List.getElem?_cons_zero, Option.some.injEq] at h0
      rw [List.findIdx?_cons, h0]
      simp
  have hskip : ∀ (rows : List (SRow K)) k, k ≤ c → loop (elim none n t rows) (A i) (List.range k) = some (A i) := by
    intro rows k
    induction k with
    | zero => intro _; rfl
    | succ k ih =>
      intro hk
      rw [loop_succ, ih (by omega), Option.bind_some, elim, hnone k (by omega)]
  have hrow : ∀ rows : List (SRow K), rows.length = i → factorRow none sv sc n p t rows (A i) = none := by
    intro rows hlen
    have hl : loop (elim none n t rows) (A i) (List.range rows.length) = none := by
      refine loop_none_of _ _ c _ (by omega) fun s' hs' => ?_
      rw [hskip rows c (le_refl _), Option.some.injEq] at hs'
      subst hs'
      rw [elim, hfind]
      dsimp only
      cases rows[c]? with
      | none => rfl
      | some ru =>
        rw [Option.bind_some]
        cases ru.at (c : Int) with
        | none => rfl
        | some d =>
          rw [Option.bind_some, h0, Option.bind_some]
          obtain ⟨s1, s2, s3⟩ := set_sorted hA.2.1 h0 (v / d)
          have hat : ({ A i with els := (A i).els.set 0 ((c : Int), v / d) } : SRow K).at ((0 : Nat) : Int) = none := by
            refine (C14_read _ _).2 fun e he => ?_
            obtain ⟨y, hy, hye⟩ := s2 e he
            have := hge y hy
            rw [← hye]
            push_cast
            omega
          dsimp only
          rw [dropT, hat]
          rfl
    rw [factorRow, hl]
    rfl
  rw [ilut, factor, loop_none_of _ _ i n hi fun rows hr => ?_]
  · rfl
  · rw [hrow rows (factor_length i rows hr)]
    rfl

theorem rangeBegin_append (a b : Int) (lo up : List (Int × K)) (h : ∀ e ∈ lo, e.1 < a ∧ e.1 ≤ b) :
    rangeBegin a b (lo ++ up) = rangeBegin a b up := by
  induction lo with
  | nil => rfl
  | cons x lo ih =>
    have hx := h x List.mem_cons_self
    rw [List.cons_append, rangeBegin, if_neg (by omega), if_neg (by omega)]
    exact ih fun e he => h e (List.mem_cons_of_mem _ he)

/-- Sorting a range that is a block of the row sorts this block. -/
theorem sortRange_block (sv : List (Int × K) → List (Int × K)) (hsv : sv [] = []) (n : Nat) (lo mid up : List (Int × K)) (a b : Int)
    (h1 : ∀ e ∈ lo, e.1 < a ∧ e.1 ≤ b) (h2 : ∀ e ∈ mid, a ≤ e.1 ∧ e.1 < b) (h3 : ∀ e ∈ up, b < e.1) :
    (sortRange sv ⟨n, lo ++ mid ++ up⟩ a b).els = lo ++ sv mid ++ up := by
  unfold sortRange SRow.range
  dsimp only
  rw [List.append_assoc lo mid up, rangeBegin_append a b lo _ h1]
  cases mid with
  | nil =>
    have hb : rangeBegin a b up = [] := by
      cases up with
      | nil => rfl
      | cons x up => rw [rangeBegin, if_pos (h3 x List.mem_cons_self)]
    rw [List.nil_append, hb]
    simp [hsv]
  | cons x mid =>
    have hx := h2 x List.mem_cons_self
    rw [List.cons_append, rangeBegin, if_neg (by omega), if_pos (by omega)]
    have htw : (mid ++ up).takeWhile (fun x => decide (x.1 < b)) = mid := by
      rw [List.takeWhile_append_of_pos (fun e he => by simpa using (h2 e (List.mem_cons_of_mem _ he)).2)]
      cases up with
      | nil => simp
      | cons y up => rw [List.takeWhile_cons_of_neg (by have := h3 y List.mem_cons_self; simp; omega), List.append_nil]
    dsimp only
    rw [htw]
    have hst : (lo ++ x :: (mid ++ up)).length - (x :: (mid ++ up)).length = lo.length := by simp
    rw [hst, List.take_left, List.drop_left, ← List.cons_append, List.take_left, ← List.append_assoc,
      List.drop_append_of_le_length (by simp)]
    have : (lo ++ x :: mid).drop (lo.length + (x :: mid).length) = [] := by
      rw [List.drop_eq_nil_iff]; simp
    rw [this, List.nil_append]

/-- The block of length one that `range(0, d)` visits when nothing is stored before the diagonal. -/
theorem sortRange_diag (sv : List (Int × K) → List (Int × K)) (n : Nat) (x : Int × K) (up : List (Int × K)) (hx : 0 ≤ x.1)
    (hsv : sv [x] = [x]) (h3 : ∀ e ∈ up, x.1 < e.1) :
    (sortRange sv ⟨n, x :: up⟩ 0 x.1).els = x :: up := by
  unfold sortRange SRow.range
  dsimp only
  rw [rangeBegin, if_neg (by omega), if_pos (by omega)]
  have htw : up.takeWhile (fun y => decide (y.1 < x.1)) = [] := by
    cases up with
    | nil => rfl
    | cons y up => rw [List.takeWhile_cons_of_neg (by have := h3 y List.mem_cons_self; simp; omega)]
  dsimp only
  rw [htw]
  simp [hsv]

/-- The values that `drop_p` keeps of one side of the row are the smallest. -/
def KeepsSmallest (p : Nat) (before kept : List (Int × K)) : Prop :=
  kept.length = min p before.length ∧ ∃ dropped, (dropped ++ kept).Perm before ∧ ∀ x ∈ dropped, ∀ y ∈ kept, |y.2| ≤ |x.2|

theorem keeps {sv : List (Int × K) → List (Int × K)} (hv : SortsV sv) (p : Nat) (l : List (Int × K)) :
    KeepsSmallest p l ((sv l).drop (l.length - p)) := by
  obtain ⟨h1, h2⟩ := hv l
  refine ⟨by rw [List.length_drop, h1.length_eq]; omega, (sv l).take (l.length - p), ?_, fun x hx y hy => ?_⟩
  · rw [List.take_append_drop]; exact h1
  · rw [← List.take_append_drop (l.length - p) (sv l)] at h2
    exact (List.pairwise_append.mp h2).2.2 x hx y hy

theorem sorts_nil {sv : List (Int × K) → List (Int × K)} (hv : SortsV sv) : sv [] = [] := (hv []).1.eq_nil

theorem sorts_single {sv : List (Int × K) → List (Int × K)} (hv : SortsV sv) (x : Int × K) : sv [x] = [x] :=
  List.perm_singleton.mp (hv [x]).1

/-- C120, limiting the number of values: of a row with a diagonal, the diagonal is kept and on either side at most `p` values,
    but these are the smallest of the side, not the largest. -/
theorem C120_keeps_smallest {sv sc : List (Int × K) → List (Int × K)} (hv : SortsV sv) (hc : SortsC sc) {n : Nat} {lo up : List (Int × K)}
    {d : Nat} {x : K} (hr : RowOK n ⟨n, lo ++ ((d : Int), x) :: up⟩) (p : Nat) :
    ∃ lo' up', (limit sv sc ⟨n, lo ++ ((d : Int), x) :: up⟩ d p).els = lo' ++ ((d : Int), x) :: up' ∧
      RowOK n (limit sv sc ⟨n, lo ++ ((d : Int), x) :: up⟩ d p) ∧
      KeepsSmallest p lo lo' ∧ KeepsSmallest p up up' := by
  obtain ⟨_, hs, hb⟩ := hr
  dsimp only at hs hb
  obtain ⟨s1, s2, s3⟩ := List.pairwise_append.mp hs
  obtain ⟨s4, s5⟩ := List.pairwise_cons.mp s2
  have hlo : ∀ e ∈ lo, 0 ≤ e.1 ∧ e.1 < (d : Int) := fun e he =>
    ⟨(hb e (List.mem_append_left _ he)).1, s3 e he _ List.mem_cons_self⟩
  have hup : ∀ e ∈ up, (d : Int) < e.1 ∧ e.1 < (n : Int) := fun e he =>
    ⟨s4 e he, (hb e (List.mem_append_right _ (List.mem_cons_of_mem _ he))).2⟩
  have hd : (d : Int) < n := (hb _ (List.mem_append_right _ List.mem_cons_self)).2
  have hcl : countLower (⟨n, lo ++ ((d : Int), x) :: up⟩ : SRow K) d = lo.length := by
    unfold countLower
    dsimp only
    rw [List.filter_append, List.filter_eq_self.mpr (fun e he => by simpa using (hlo e he).2), List.filter_eq_nil_iff.mpr, List.append_nil]
    intro e he
    rcases List.mem_cons.mp he with rfl | he
    · simp
    · have := (hup e he).1; simp; omega
  have hq1 : (sortRange sv ⟨n, lo ++ ((d : Int), x) :: up⟩ 0 d) = ⟨n, sv lo ++ ((d : Int), x) :: up⟩ := by
    have hn : (sortRange sv ⟨n, lo ++ ((d : Int), x) :: up⟩ 0 d).n = n := rfl
    have he : (sortRange sv ⟨n, lo ++ ((d : Int), x) :: up⟩ 0 d).els = sv lo ++ ((d : Int), x) :: up := by
      cases lo with
      | nil =>
        rw [sorts_nil hv, List.nil_append]
        exact sortRange_diag sv n _ up (by dsimp only; omega) (sorts_single hv _) fun e he => (hup e he).1
      | cons y lo =>
        unfold sortRange SRow.range
        dsimp only
        have hy := hlo y List.mem_cons_self
        rw [List.cons_append, rangeBegin, if_neg (by omega), if_pos (by omega)]
        have htw : (lo ++ ((d : Int), x) :: up).takeWhile (fun e => decide (e.1 < (d : Int))) = lo := by
          rw [List.takeWhile_append_of_pos (fun e he => by simpa using (hlo e (List.mem_cons_of_mem _ he)).2),
            List.takeWhile_cons_of_neg (by simp), List.append_nil]
        dsimp only
        rw [htw, Nat.sub_self, List.take_zero, List.drop_zero, List.nil_append, ← List.cons_append, List.take_left, Nat.zero_add,
          List.drop_left]
    exact congrArg₂ SRow.mk hn he
  have hq2 : (sortRange sv ⟨n, sv lo ++ ((d : Int), x) :: up⟩ ((d : Int) + 1) n) = ⟨n, sv lo ++ ((d : Int), x) :: sv up⟩ := by
    have hn : (sortRange sv ⟨n, sv lo ++ ((d : Int), x) :: up⟩ ((d : Int) + 1) n).n = n := rfl
    have he : (sortRange sv ⟨n, sv lo ++ ((d : Int), x) :: up⟩ ((d : Int) + 1) n).els = sv lo ++ ((d : Int), x) :: sv up := by
      have := sortRange_block sv (sorts_nil hv) n (sv lo ++ [((d : Int), x)]) up [] ((d : Int) + 1) n (fun e he => by
        rcases List.mem_append.mp he with he | he
        · have := hlo e ((hv lo).1.subset he); omega
        · rw [List.mem_singleton] at he; rw [he]; dsimp only; omega) (fun e he => by have := hup e he; omega) (by simp)
      simpa using this
    exact congrArg₂ SRow.mk hn he
  have hlen : (sv lo).length = lo.length := (hv lo).1.length_eq
  have hlenu : (sv up).length = up.length := (hv up).1.length_eq
  have hfin : (limit sv sc ⟨n, lo ++ ((d : Int), x) :: up⟩ d p) =
      ⟨n, sc ((sv lo).drop (lo.length - p) ++ ((d : Int), x) :: (sv up).drop (up.length - p))⟩ := by
    unfold limit
    rw [hcl, hq1]
    dsimp only
    rw [hq2]
    have hcu : ((lo ++ ((d : Int), x) :: up).length : Int) - 1 - lo.length = up.length := by
      rw [List.length_append, List.length_cons]; push_cast; ring
    rw [hcu]
    by_cases h1 : lo.length > p
    · rw [if_pos h1]
      dsimp only
      have hd1 : (sv lo ++ ((d : Int), x) :: sv up).drop (lo.length - p) = (sv lo).drop (lo.length - p) ++ ((d : Int), x) :: sv up :=
        List.drop_append_of_le_length (by omega)
      have hl1 : ((sv lo).drop (lo.length - p)).length = p := by rw [List.length_drop]; omega
      rw [hd1]
      generalize (sv lo).drop (lo.length - p) = L at hl1
      by_cases h2 : ((up.length : Nat) : Int) > p
      · rw [if_pos h2]
        dsimp only
        have e1 : (L ++ ((d : Int), x) :: sv up).take (p + 1) = L ++ [((d : Int), x)] := by
          rw [← hl1, List.take_length_add_append]; rfl
        have e2 : (L ++ ((d : Int), x) :: sv up).drop (p + 1 + ((up.length : Int) - p).toNat) = (sv up).drop (up.length - p) := by
          rw [show p + 1 + ((up.length : Int) - p).toNat = L.length + (1 + (up.length - p)) by omega, List.drop_length_add_append, Nat.add_comm 1]
          rfl
        rw [e1, e2]
        simp
      · rw [if_neg h2, show up.length - p = 0 by omega]; rfl
    · rw [if_neg h1, show lo.length - p = 0 by omega]
      dsimp only
      rw [List.drop_zero]
      by_cases h2 : ((up.length : Nat) : Int) > p
      · rw [if_pos h2]
        dsimp only
        have e1 : (sv lo ++ ((d : Int), x) :: sv up).take (lo.length + 1) = sv lo ++ [((d : Int), x)] := by
          rw [← hlen, List.take_length_add_append]; rfl
        have e2 : (sv lo ++ ((d : Int), x) :: sv up).drop (lo.length + 1 + ((up.length : Int) - p).toNat) = (sv up).drop (up.length - p) := by
          rw [show lo.length + 1 + ((up.length : Int) - p).toNat = (sv lo).length + (1 + (up.length - p)) by omega,
            List.drop_length_add_append, Nat.add_comm 1]
          rfl
        rw [e1, e2]
        simp
      · rw [if_neg h2, show up.length - p = 0 by omega]; rfl
  rw [hfin]
  dsimp only
  obtain ⟨k1, D1, k2, k3⟩ := keeps hv p lo
  obtain ⟨k4, D2, k5, k6⟩ := keeps hv p up
  generalize (sv lo).drop (lo.length - p) = L at k1 k2 k3
  generalize (sv up).drop (up.length - p) = U at k4 k5 k6
  have hL : ∀ e ∈ L, e ∈ lo := fun e he => k2.subset (List.mem_append_right _ he)
  have hU : ∀ e ∈ U, e ∈ up := fun e he => k5.subset (List.mem_append_right _ he)
  -- the sorted rows of the kept values
  have hnd : ∀ {S T D : List (Int × K)}, Sorted S → (D ++ T).Perm S → Sorted (sc T) := by
    intro S T D hS hp
    obtain ⟨c1, c2⟩ := hc T
    have hne : (sc T).Pairwise fun a b => a.1 ≠ b.1 := by
      have h1 : S.Pairwise fun a b => a.1 ≠ b.1 := hS.imp fun h => ne_of_lt h
      have h2 : (D ++ T).Pairwise fun a b => a.1 ≠ b.1 := hp.symm.pairwise h1 fun h => Ne.symm h
      exact c1.symm.pairwise (List.pairwise_append.mp h2).2.1 fun h => Ne.symm h
    exact (c2.and hne).imp fun ⟨h1, h2⟩ => lt_of_le_of_ne h1 h2
  have hLs := hnd s1 k2
  have hUs := hnd s5 k5
  have hsorted : Sorted (sc L ++ ((d : Int), x) :: sc U) := by
    refine List.pairwise_append.mpr ⟨hLs, List.pairwise_cons.mpr ⟨fun e he => (hup e (hU e ((hc U).1.subset he))).1, hUs⟩, fun a ha b hb => ?_⟩
    have h1 := (hlo a (hL a ((hc L).1.subset ha))).2
    rcases List.mem_cons.mp hb with rfl | hb
    · exact h1
    · have := (hup b (hU b ((hc U).1.subset hb))).1
      omega
  have heq : sc (L ++ ((d : Int), x) :: U) = sc L ++ ((d : Int), x) :: sc U := by
    refine perm_sorted_eq hsorted ?_ (hc _).2
    exact (hc _).1.trans (((hc L).1.symm).append ((hc U).1.symm.cons _))
  rw [heq]
  refine ⟨sc L, sc U, rfl, ⟨rfl, hsorted, fun e he => ?_⟩, ⟨by rw [(hc L).1.length_eq, k1], D1, ?_, fun a ha b hb => k3 a ha b ((hc L).1.subset hb)⟩,
    ⟨by rw [(hc U).1.length_eq, k4], D2, ?_, fun a ha b hb => k6 a ha b ((hc U).1.subset hb)⟩⟩
  · rcases List.mem_append.mp he with he | he
    · have := hlo e (hL e ((hc L).1.subset he)); omega
    · rcases List.mem_cons.mp he with rfl | he
      · dsimp only; omega
      · have := hup e (hU e ((hc U).1.subset he)); omega
  · exact ((List.Perm.refl D1).append (hc L).1).trans k2
  · exact ((List.Perm.refl D2).append (hc U).1).trans k5

/-- Sorts to make the claims concrete. -/
def byValue (l : List (Int × ℚ)) : List (Int × ℚ) := l.insertionSort fun a b => |b.2| ≤ |a.2|
def byColumn (l : List (Int × ℚ)) : List (Int × ℚ) := l.insertionSort fun a b => a.1 ≤ b.1

theorem byValue_sorts : SortsV byValue := by
  intro l
  haveI : Std.Total fun a b : Int × ℚ => |b.2| ≤ |a.2| := ⟨fun a b => le_total _ _⟩
  haveI : IsTrans (Int × ℚ) fun a b => |b.2| ≤ |a.2| := ⟨fun a b c h1 h2 => le_trans h2 h1⟩
  exact ⟨List.perm_insertionSort _ l, List.pairwise_insertionSort (fun a b : Int × ℚ => |b.2| ≤ |a.2|) l⟩

theorem byColumn_sorts : SortsC byColumn := by
  intro l
  haveI : Std.Total fun a b : Int × ℚ => a.1 ≤ b.1 := ⟨fun a b => le_total _ _⟩
  haveI : IsTrans (Int × ℚ) fun a b => a.1 ≤ b.1 := ⟨fun a b c h1 h2 => le_trans h1 h2⟩
  exact ⟨List.perm_insertionSort _ l, List.pairwise_insertionSort (fun a b : Int × ℚ => a.1 ≤ b.1) l⟩

/-- The full claim about dropping: what is dropped without being below the threshold is no larger than anything kept on its
    side of the diagonal. -/
def C120Claim : Prop :=
  ∀ (sv sc : List (Int × ℚ) → List (Int × ℚ)), SortsV sv → SortsC sc → ∀ (n d p : Nat) (t : ℚ) (r r' : SRow ℚ), RowOK n r →
    (∃ e ∈ r.els, e.1 = (d : Int)) → dropP none sv sc r d p t = some r' →
    ∀ x ∈ r.els, x ∉ r'.els → t ≤ |x.2| → ∀ y ∈ r'.els, (x.1 < (d : Int) ↔ y.1 < (d : Int)) → (d : Int) ≠ y.1 → |x.2| ≤ |y.2|

/-- C120, the claim fails: of the values 2 and 1 after the diagonal, with room for one, 1 is kept. -/
theorem C120_claim_fails : ¬ C120Claim := by
  intro h
  have := h byValue byColumn byValue_sorts byColumn_sorts 3 0 1 0 ⟨3, [(0, 4), (1, 2), (2, 1)]⟩ ⟨3, [(0, 4), (2, 1)]⟩
    ⟨rfl, by unfold Sorted; decide +kernel, by decide +kernel⟩ ⟨(0, 4), by simp, rfl⟩ (by decide +kernel) (1, 2) (by simp) (by decide +kernel)
    (by decide +kernel) (2, 1) (by simp) (by simp) (by simp)
  revert this
  decide +kernel

/-- C120, the threshold: 1/10 at column two stays although the threshold is 1/2; in the second row the diagonal 7 goes and a
    value below the threshold stays. -/
theorem C120_threshold :
    dropP none byValue byColumn ⟨3, [(0, 1), (1, 1/10), (2, 1/10)]⟩ 0 3 (1/2) = some ⟨3, [(0, 1), (2, 1/10)]⟩ ∧
      dropP none byValue byColumn ⟨3, [(0, 1/10), (1, 1/10), (2, 7)]⟩ 2 3 (1/2) = some ⟨3, [(1, 1/10)]⟩ := by decide +kernel

theorem dropSmall_mem {stray : Option K} {t : K} : ∀ (fuel idx : Nat) (r r' : SRow K), dropSmall stray t fuel idx r = some r' →
    ∀ e ∈ r'.els, e ∈ r.els := by
  intro fuel
  induction fuel with
  | zero => intro idx r r' h; simp only [dropSmall, Option.some.injEq] at h; subst h; exact fun e he => he
  | succ fuel ih =>
    intro idx r r' h e he
    simp only [dropSmall] at h
    split_ifs at h with h1
    · cases hd : dropT stray r idx t with
      | none => rw [hd] at h; simp at h
      | some s =>
        rw [hd, Option.bind_some] at h
        have hm := ih _ _ _ h e he
        unfold dropT at hd
        cases hv : (r.at (idx : Int)).or stray with
        | none => rw [hv] at hd; simp at hd
        | some v =>
          rw [hv, Option.bind_some] at hd
          split_ifs at hd
          · unfold SRow.deleteValue at hd
            rw [if_pos h1, Option.map_some, Option.some.injEq] at hd
            subst hd
            exact (List.eraseIdx_sublist _ _).subset hm
          · rw [Option.some.injEq] at hd
            subst hd; exact hm
    · rw [Option.some.injEq] at h
      subst h; exact he

theorem limit_mem {sv sc : List (Int × K) → List (Int × K)} (hv : SortsV sv) (hc : SortsC sc) (r : SRow K) (d p : Nat) :
    ∀ e ∈ (limit sv sc r d p).els, e ∈ r.els := by
  have h1 := (sortRange_perm (fun l => (hv l).1) r 0 d).1
  have h2 := (sortRange_perm (fun l => (hv l).1) (sortRange sv r 0 d) (d + 1) r.n).1
  intro e he
  refine (h2.trans h1).subset ?_
  unfold limit at he
  dsimp only at he
  replace he := (hc _).1.subset he
  generalize (sortRange sv (sortRange sv r 0 d) (d + 1) r.n) = q at he ⊢
  by_cases c1 : countLower r d > p
  · rw [if_pos c1] at he
    dsimp only at he
    split_ifs at he
    · rcases List.mem_append.mp he with he | he
      · exact List.mem_of_mem_drop (List.mem_of_mem_take he)
      · exact List.mem_of_mem_drop (List.mem_of_mem_drop he)
    · exact List.mem_of_mem_drop he
  · rw [if_neg c1] at he
    dsimp only at he
    split_ifs at he
    · rcases List.mem_append.mp he with he | he
      · exact List.mem_of_mem_take he
      · exact List.mem_of_mem_drop he
    · exact he

/-- C120, the options' defaults: with neither levels nor threshold given, the solver asks for none and for 10⁸, so that the
    diagonal of the first row is dropped; if the second row has a value below it, the construction reads outside the first. -/
theorem C120_defaults {stray : Option K} {sv sc : List (Int × K) → List (Int × K)} (hv : SortsV sv) (hc : SortsC sc)
    (srt : List (Trip K) → List (Trip K)) {n : Nat} (hn : 1 < n) {A : Nat → SRow K} (hA : RowOK n (A 0)) {v w : K}
    (h0 : (A 0).els[0]? = some (0, v)) (hlt : |v| < 100000000) (h1 : (A 1).els[0]? = some (0, w)) :
    ilut stray sv sc srt n (options none (none : Option K)).1 (options none (none : Option K)).2 A = none := by
  have hopt : options none (none : Option K) = (0, 100000000) := rfl
  rw [hopt]
  dsimp only
  have htail : ∀ e ∈ (A 0).els.eraseIdx 0, e.1 ≠ 0 := by
    intro e he
    have hs := hA.2.1
    cases hl : (A 0).els with
    | nil => rw [hl] at he; simp at he
    | cons x l =>
      rw [hl] at h0 hs he
      simp only [List.getElem?_cons_zero, Option.some.injEq] at h0
      have := (List.pairwise_cons.mp hs).1 e (by simpa using he)
      rw [h0] at this
      dsimp only at this
      omega
  have hlen0 : 0 < (A 0).els.length := by
    by_contra hcon
    rw [List.getElem?_eq_none (by omega)] at h0
    simp at h0
  have hrow0 : ∀ r, factorRow stray sv sc n 0 100000000 [] (A 0) = some r → ∀ e ∈ r.els, e.1 ≠ 0 := by
    intro r hr e he
    rw [factorRow, List.length_nil, List.range_zero] at hr
    simp only [loop, List.foldl_nil, Option.bind_some, dropP] at hr
    rw [if_pos (by norm_num)] at hr
    cases hd : dropSmall stray 100000000 (A 0).els.length 0 (A 0) with
    | none => rw [hd] at hr; simp at hr
    | some s =>
      rw [hd, Option.map_some, Option.some.injEq] at hr
      subst hr
      have hm := limit_mem hv hc s 0 0 e he
      obtain ⟨fuel, hf⟩ : ∃ fuel, (A 0).els.length = fuel + 1 := ⟨(A 0).els.length - 1, by omega⟩
      rw [hf, dropSmall, if_pos hlen0, dropT] at hd
      have hat : (A 0).at ((0 : Nat) : Int) = some v := by
        have hval := val_get hA.2.1 h0
        dsimp only at hval
        have hr := (C14_read (A 0) ((0 : Nat) : Int)).1 ⟨(0, v), List.mem_of_getElem? h0, rfl⟩
        rw [hr, ← hval]; rfl
      rw [hat] at hd
      rw [show (some v).or stray = some v from rfl, Option.bind_some] at hd
      rw [if_pos hlt, SRow.deleteValue, if_pos hlen0] at hd
      simp only [Option.map_some, Option.bind_some] at hd
      exact htail e (dropSmall_mem _ _ _ _ hd e hm)
  rw [ilut, factor, loop_none_of _ _ 1 n hn fun rows hr => ?_]
  · rfl
  · rw [show (1 : Nat) = 0 + 1 from rfl, loop_succ] at hr
    simp only [List.range_zero, loop, List.foldl_nil, Option.bind_some] at hr
    cases hf : factorRow stray sv sc n 0 100000000 [] (A 0) with
    | none => rw [hf] at hr; simp at hr
    | some r =>
      rw [hf, Option.map_some, List.nil_append, Option.some.injEq] at hr
      subst hr
      have hfind : (A 1).find ((0 : Nat) : Int) = some 0 := by
        unfold SRow.find
        cases hl : (A 1).els with
        | nil => rw [hl] at h1; simp at h1
        | cons x l =>
          rw [hl] at h1
          simp only [List.getElem?_cons_zero, Option.some.injEq] at h1
          rw [List.findIdx?_cons, h1]
          simp
      have hnone : r.at ((0 : Nat) : Int) = none := (C14_read r _).2 fun e he => by exact_mod_cast hrow0 r hf e he
      rw [factorRow, List.length_singleton, show (1 : Nat) = 0 + 1 from rfl, loop_succ]
      simp only [List.range_zero, loop, List.foldl_nil, Option.bind_some, elim]
      rw [hfind]
      dsimp only
      rw [List.getElem?_cons_zero, Option.bind_some, hnone]
      rfl

/-! ## Cases -/

/-- A full matrix of order three, L U with L = ((1), (2, 1), (1, 3, 1)) and U = ((2, 1, 1), (1, 1), (2)). -/
def exA (i : Nat) : SRow ℚ :=
  ⟨3, [[((0 : Int), (2 : ℚ)), (1, 1), (2, 1)], [(0, 4), (1, 3), (2, 3)], [(0, 2), (1, 4), (2, 6)]].getD i []⟩

/-- `C120_factors_partial` and `C120_solves_partial` on it, with undefined stray reads. -/
example : factor none byValue byColumn 3 1000 0 exA =
      some [⟨3, [(0, 2), (1, 1), (2, 1)]⟩, ⟨3, [(0, 2), (1, 1), (2, 1)]⟩, ⟨3, [(0, 1), (1, 3), (2, 2)]⟩] ∧
    (ilut none byValue byColumn insSort 3 5 0 exA).map (fun P => (List.range 3).map (ilutApply P (fun i => [4, 10, 12].getD i 0) fun _ => 9)) =
      some [1, 1, 1] := by decide +kernel

example : IsLU 3 (fun i j => valAt (exA i).els (j : Int))
    (fun i j => if i = j then 1 else if j < i then (if i = 1 then 2 else if j = 0 then 1 else 3) else 0)
    (fun i j => if j < i then 0 else if i = 0 then (if j = 0 then 2 else 1) else if i = 1 then 1 else 2) where
  unit := by simp
  lower := fun i j h => by rw [if_neg (by omega), if_neg (by omega)]
  upper := fun i j h => by rw [if_pos h]
  pivot := by decide +kernel
  prod := by decide +kernel

/-- `C120_sparse_undefined` on a tridiagonal matrix: undefined, but the exact factors if the stray read is harmless. -/
example : factor none byValue byColumn 3 1000 0 (fun i => ⟨3, [[((0 : Int), (2 : ℚ)), (1, 1)], [(0, 2), (1, 2), (2, 1)], [(1, 3), (2, 4)]].getD i []⟩) = none ∧
    factor (some 5) byValue byColumn 3 1000 0 (fun i => ⟨3, [[((0 : Int), (2 : ℚ)), (1, 1)], [(0, 2), (1, 2), (2, 1)], [(1, 3), (2, 4)]].getD i []⟩) =
      some [⟨3, [(0, 2), (1, 1)]⟩, ⟨3, [(0, 1), (1, 1), (2, 1)]⟩, ⟨3, [(1, 3), (2, 1)]⟩] := by decide +kernel

/-- `C120_keeps_smallest` on a row, and `C120_defaults` on a matrix of order two. -/
example : (limit byValue byColumn ⟨5, [(0, 3), (1, 1), (2, 9), (3, 4), (4, 2)]⟩ 2 1 : SRow ℚ).els = [(1, 1), (2, 9), (4, 2)] ∧
    factor none byValue byColumn 2 0 100000000 (fun i => ⟨2, [[((0 : Int), (2 : ℚ)), (1, 1)], [(0, 2), (1, 2)]].getD i []⟩) = none := by
  decide +kernel

end Detran.Ilut
