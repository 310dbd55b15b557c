import Verif.Props.Sweep
import Mathlib.Tactic.IntervalCases

/-!
# Octant ordering (C29)
-/

namespace Detran.Sweep

/-! ## The exchange sort -/

/-- Reading after an exchange. -/
theorem exchange_getD (i j n : Nat) (p : List Nat × List Nat) (h2 : p.2.length = n) (hi : i < n)
    (hj : j < n) (k : Nat) : (exchange i j p).2.getD k 0 =
      if p.2.getD j 0 < p.2.getD i 0 then
        (if k = i then p.2.getD j 0 else if k = j then p.2.getD i 0 else p.2.getD k 0)
      else p.2.getD k 0 := by
  unfold exchange
  split_ifs with h h1 h3
  · subst h1; simp [List.getD_eq_getElem?_getD, h2, hi]
  · subst h3
    simp [List.getD_eq_getElem?_getD, h2, hj, List.getElem?_set, Ne.symm h1]
  · simp [List.getD_eq_getElem?_getD, List.getElem?_set, Ne.symm h1, Ne.symm h3]
  · rfl

/-- Lists of length `n`, permutation of the original, and counts still attached to their octants. -/
structure Keep (n : Nat) (c0 : Nat → Nat) (l0 : List Nat) (p : List Nat × List Nat) : Prop where
  len1 : p.1.length = n
  len2 : p.2.length = n
  perm : p.1.Perm l0
  att : ∀ k < n, p.2.getD k 0 = c0 (p.1.getD k 0)

theorem exchange_keep {n : Nat} {c0 : Nat → Nat} {l0 : List Nat} {p : List Nat × List Nat}
    (h : Keep n c0 l0 p) {i j : Nat} (hi : i < n) (hj : j < n) :
    Keep n c0 l0 (exchange i j p) := by
  obtain ⟨h1, h2, h3, h4⟩ := h
  unfold exchange
  split_ifs with hc
  · refine ⟨by simp [h1], by simp [h2], ?_, ?_⟩
    · have e1 : p.1.getD i 0 = p.1[i] := by simp [List.getD_eq_getElem?_getD, h1, hi]
      have e2 : p.1.getD j 0 = p.1[j] := by simp [List.getD_eq_getElem?_getD, h1, hj]
      rw [e1, e2]
      exact (List.set_set_perm (by omega) (by omega)).trans h3
    · intro k hk
      have hi4 := h4 i hi
      have hj4 := h4 j hj
      have hk4 := h4 k hk
      simp only [List.getD_eq_getElem?_getD] at hi4 hj4 hk4 ⊢
      by_cases e1 : k = i
      · subst e1; simpa [h1, h2, hk] using hj4
      · by_cases e2 : k = j
        · subst e2; simpa [h1, h2, hk, List.getElem?_set, Ne.symm e1] using hi4
        · simpa [List.getElem?_set, Ne.symm e1, Ne.symm e2] using hk4
  · exact ⟨h1, h2, h3, h4⟩

/-- First pass: position 0 receives the smallest count. -/
theorem pass_zero {n : Nat} {c0 : Nat → Nat} {l0 : List Nat} {p : List Nat × List Nat}
    (h : Keep n c0 l0 p) (hn : 0 < n) : ∀ m ≤ n,
    let p' := (List.range m).foldl (fun p j => exchange 0 j p) p
    Keep n c0 l0 p' ∧ ∀ k < m, p'.2.getD 0 0 ≤ p'.2.getD k 0 := by
  intro m
  induction m with
  | zero => intro _; exact ⟨h, fun k hk => absurd hk (by omega)⟩
  | succ m ih =>
      intro hm
      obtain ⟨i1, i2⟩ := ih (by omega)
      intro p'
      have e : p' = exchange 0 m ((List.range m).foldl (fun p j => exchange 0 j p) p) := by
        show (List.range (m + 1)).foldl _ p = _
        rw [List.range_succ, List.foldl_append]; rfl
      rw [e]
      refine ⟨exchange_keep i1 hn (by omega), ?_⟩
      intro k hk
      rw [exchange_getD 0 m n _ i1.len2 hn (by omega), exchange_getD 0 m n _ i1.len2 hn (by omega)]
      set c := ((List.range m).foldl (fun p j => exchange 0 j p) p).2
      by_cases hc : c.getD m 0 < c.getD 0 0
      · rw [if_pos hc, if_pos hc, if_pos rfl]
        by_cases e1 : k = 0
        · rw [if_pos e1]
        · rw [if_neg e1]
          by_cases e2 : k = m
          · rw [if_pos e2]; omega
          · rw [if_neg e2]; have := i2 k (by omega); omega
      · rw [if_neg hc, if_neg hc]
        by_cases e2 : k = m
        · subst e2; omega
        · exact i2 k (by omega)

/-- Later passes insert one element into the descending prefix. -/
theorem pass_succ {n : Nat} {c0 : Nat → Nat} {l0 : List Nat} {p : List Nat × List Nat}
    (h : Keep n c0 l0 p) (i : Nat) (hi0 : 0 < i) (hi : i < n)
    (hsort : ∀ a b, a < b → b < i → p.2.getD b 0 ≤ p.2.getD a 0)
    (hmin : ∀ k < n, p.2.getD (i - 1) 0 ≤ p.2.getD k 0) : ∀ m ≤ n,
    let c := ((List.range m).foldl (fun p j => exchange i j p) p).2
    Keep n c0 l0 ((List.range m).foldl (fun p j => exchange i j p) p) ∧
    (∀ a b, a < b → b < i → c.getD b 0 ≤ c.getD a 0) ∧
    (∀ a < m, a < i → c.getD i 0 ≤ c.getD a 0) ∧
    (m < i → ∀ k < n, c.getD (i - 1) 0 ≤ c.getD k 0) ∧
    (i ≤ m → ∀ k < n, c.getD i 0 ≤ c.getD k 0) := by
  intro m
  induction m with
  | zero =>
      intro _
      exact ⟨h, hsort, fun a ha => absurd ha (by omega), fun _ => hmin, fun h => absurd h (by omega)⟩
  | succ m ih =>
      intro hm
      obtain ⟨i1, i2, i3, i4, i5⟩ := ih (by omega)
      intro c
      set q := (List.range m).foldl (fun p j => exchange i j p) p with hq
      have e : (List.range (m + 1)).foldl (fun p j => exchange i j p) p = exchange i m q := by
        rw [List.range_succ, List.foldl_append]; rfl
      have hc : ∀ k, c.getD k 0 = if q.2.getD m 0 < q.2.getD i 0 then
          (if k = i then q.2.getD m 0 else if k = m then q.2.getD i 0 else q.2.getD k 0)
          else q.2.getD k 0 := by
        intro k
        show ((List.range (m + 1)).foldl (fun p j => exchange i j p) p).2.getD k 0 = _
        rw [e]
        exact exchange_getD i m n q i1.len2 hi (by omega) k
      refine ⟨by rw [e]; exact exchange_keep i1 hi (by omega), ?_⟩
      by_cases hlt : q.2.getD m 0 < q.2.getD i 0
      · -- an exchange happens only before position `i`
        have hmi : m < i := by
          by_contra hge
          have := i5 (by omega) m (by omega)
          omega
        simp only [hlt, if_true] at hc
        refine ⟨?_, ?_, ?_, ?_⟩
        · intro a b hab hb
          rw [hc b, hc a, if_neg (show b ≠ i by omega), if_neg (show a ≠ i by omega)]
          by_cases ea : a = m
          · rw [if_pos ea, if_neg (show b ≠ m by omega)]
            have := i2 a b hab hb
            rw [ea] at this; omega
          · rw [if_neg ea]
            by_cases eb : b = m
            · rw [if_pos eb]
              have := i3 a (by omega) (by omega); exact this
            · rw [if_neg eb]; exact i2 a b hab hb
        · intro a ha hai
          rw [hc i, hc a, if_pos rfl, if_neg (show a ≠ i by omega)]
          by_cases ea : a = m
          · rw [if_pos ea]; omega
          · rw [if_neg ea]; exact i2 a m (by omega) hmi
        · intro hm' k hk
          have hh := i4 (by omega)
          have h0 : c.getD (i - 1) 0 = q.2.getD (i - 1) 0 := by
            rw [hc, if_neg (by omega), if_neg (by omega)]
          rw [h0, hc]
          split_ifs
          · exact hh m (by omega)
          · exact hh i hi
          · exact hh k hk
        · intro hm' k hk
          have em : m = i - 1 := by omega
          have hh := i4 (by omega)
          rw [hc, if_pos rfl, hc]
          split_ifs
          · exact le_refl _
          · omega
          · rw [em]; exact hh k hk
      · simp only [hlt, if_false] at hc
        simp only [hc]
        refine ⟨i2, ?_, ?_, ?_⟩
        · intro a ha hai
          by_cases ea : a = m
          · subst ea; omega
          · exact i3 a (by omega) hai
        · intro hm'; exact i4 (by omega)
        · intro hm' k hk
          by_cases e1 : i ≤ m
          · exact i5 e1 k hk
          · have em : m = i - 1 := by omega
            have := i4 (by omega) k hk
            rw [em] at hlt; omega

/-- The exchange sort puts any count vector in non-increasing order and moves the octants along
    with their counts. -/
theorem exchangeSort_spec {n : Nat} (p : List Nat × List Nat) (c0 : Nat → Nat) (l0 : List Nat)
    (h : Keep n c0 l0 p) :
    Keep n c0 l0 (exchangeSort n p) ∧
    ∀ a b, a < b → b < n → (exchangeSort n p).2.getD b 0 ≤ (exchangeSort n p).2.getD a 0 := by
  have key : ∀ m ≤ n,
      let p' := (List.range m).foldl
        (fun p i => (List.range n).foldl (fun p j => exchange i j p) p) p
      Keep n c0 l0 p' ∧ (∀ a b, a < b → b < m → p'.2.getD b 0 ≤ p'.2.getD a 0) ∧
      (0 < m → ∀ k < n, p'.2.getD (m - 1) 0 ≤ p'.2.getD k 0) := by
    intro m
    induction m with
    | zero => intro _; exact ⟨h, fun a b _ hb => absurd hb (by omega), fun h => absurd h (by omega)⟩
    | succ m ih =>
        intro hm
        obtain ⟨i1, i2, i3⟩ := ih (by omega)
        intro p'
        set q := (List.range m).foldl
          (fun p i => (List.range n).foldl (fun p j => exchange i j p) p) p with hq
        have e : p' = (List.range n).foldl (fun p j => exchange m j p) q := by
          show (List.range (m + 1)).foldl _ p = _
          rw [List.range_succ, List.foldl_append]; rfl
        rw [e]
        rcases Nat.eq_zero_or_pos m with h0 | h0
        · subst h0
          obtain ⟨j1, j2⟩ := pass_zero i1 (by omega) n (le_refl _)
          exact ⟨j1, fun a b hab hb => absurd hb (by omega), fun _ k hk => j2 k hk⟩
        · obtain ⟨j1, j2, j3, _, j5⟩ := pass_succ i1 m h0 (by omega) i2 (i3 h0) n (le_refl _)
          refine ⟨j1, ?_, fun _ k hk => j5 (by omega) k hk⟩
          intro a b hab hb
          by_cases eb : b = m
          · subst eb; exact j3 a (by omega) hab
          · exact j2 a b hab (by omega)
  obtain ⟨k1, k2, _⟩ := key n (le_refl _)
  exact ⟨k1, k2⟩

/-- The hand-written exchange sort, for every number of octants and every count vector: the
    result lists the same octants, in non-increasing order of their counts. -/
theorem C29_exchange_sort (counts : List Nat) :
    let r := (exchangeSort counts.length (List.range counts.length, counts)).1
    r.Perm (List.range counts.length) ∧
    ∀ a b, a < b → b < counts.length →
      counts.getD (r.getD b 0) 0 ≤ counts.getD (r.getD a 0) 0 := by
  intro r
  have h : Keep counts.length (fun o => counts.getD o 0) (List.range counts.length)
      (List.range counts.length, counts) :=
    ⟨by simp, rfl, List.Perm.refl _, fun k hk => by
      simp [List.getD_eq_getElem?_getD, hk]⟩
  obtain ⟨h1, h2⟩ := exchangeSort_spec _ _ _ h
  refine ⟨h1.perm, fun a b hab hb => ?_⟩
  have := h2 a b hab hb
  rw [h1.att b hb, h1.att a (by omega)] at this
  exact this

example : (exchangeSort 4 (List.range 4, [0, 2, 1, 2])).1 = [1, 3, 2, 0] := by decide

/-! ## The automatic order -/

/-- Number of non-reflective sides through which octant `o` enters the box. -/
def vacSides (dim : Nat) (refl : Nat → Bool) (o : Nat) : Nat :=
  ((List.range dim).filter fun d => !refl (entry o d)).length

theorem vacuumCount_length (dim : Nat) (refl : Nat → Bool) :
    (vacuumCount dim refl).length = 2 ^ dim := by
  unfold vacuumCount
  have h2 : ∀ (l : List Nat) (c : List Nat),
      (l.foldl (fun cnt o => cnt.set o (cnt.getD o 0 + 1)) c).length = c.length := by
    intro l
    induction l with
    | nil => intro c; rfl
    | cons o l ih => intro c; rw [List.foldl_cons, ih]; simp
  have h3 : ∀ (l : List Nat) (c : List Nat), (l.foldl (fun cnt side =>
      if refl side then cnt
      else (incidentOctants dim side).foldl (fun cnt o => cnt.set o (cnt.getD o 0 + 1)) cnt) c).length
      = c.length := by
    intro l
    induction l with
    | nil => intro c; rfl
    | cons s l ih =>
        intro c
        rw [List.foldl_cons, ih]
        split_ifs
        · rfl
        · exact h2 _ _
  rw [h3]; simp

/-- The counts depend on the conditions of the actual sides only. -/
theorem vacuumCount_congr (dim : Nat) (r r' : Nat → Bool) (h : ∀ s < 2 * dim, r s = r' s) :
    vacuumCount dim r = vacuumCount dim r' := by
  unfold vacuumCount
  apply List.foldl_ext
  intro c s hs
  rw [h s (List.mem_range.1 hs)]

theorem vacSides_congr (dim : Nat) (hd : dim ≤ 3) (r r' : Nat → Bool)
    (h : ∀ s < 2 * dim, r s = r' s) (o : Nat) : vacSides dim r o = vacSides dim r' o := by
  unfold vacSides
  congr 1
  apply List.filter_congr
  intro d hd'
  rw [List.mem_range] at hd'
  rw [h (entry o d) (by unfold entry; split_ifs <;> omega)]

/-- The count the code computes is the number of non-reflective entry sides, for all boundary
    conditions. -/
theorem vacuumCount_eq (dim : Nat) (h1 : 1 ≤ dim) (h3 : dim ≤ 3) (refl : Nat → Bool) (o : Nat)
    (ho : o < 2 ^ dim) : (vacuumCount dim refl).getD o 0 = vacSides dim refl o := by
  let L : List Bool := (List.range (2 * dim)).map refl
  have hL : ∀ s < 2 * dim, refl s = L.getD s false := by
    intro s hs; simp [L, List.getD_eq_getElem?_getD, hs]
  rw [vacuumCount_congr dim refl (fun s => L.getD s false) hL,
    vacSides_congr dim h3 refl (fun s => L.getD s false) hL]
  have fin : ∀ dim ∈ [1, 2, 3], ∀ b0 b1 b2 b3 b4 b5 : Bool, ∀ o < 2 ^ dim,
      (vacuumCount dim fun s => [b0, b1, b2, b3, b4, b5].getD s false).getD o 0 =
        vacSides dim (fun s => [b0, b1, b2, b3, b4, b5].getD s false) o := by decide +kernel
  have := fin dim (by simp; omega) (L.getD 0 false) (L.getD 1 false) (L.getD 2 false)
    (L.getD 3 false) (L.getD 4 false) (L.getD 5 false) o ho
  have e : ∀ s < 2 * dim, L.getD s false = [L.getD 0 false, L.getD 1 false, L.getD 2 false,
      L.getD 3 false, L.getD 4 false, L.getD 5 false].getD s false := by
    intro s hs
    have : s < 6 := by omega
    interval_cases s <;> rfl
  rw [vacuumCount_congr dim _ _ e, vacSides_congr dim h3 _ _ e]
  exact this

/-- Without a user-specified order, the order is a permutation of the octants in every dimension
    and for all boundary conditions. -/
theorem C29_order_permutation (dim : Nat) (h1 : 1 ≤ dim) (h3 : dim ≤ 3) (hasRefl hasVac : Bool)
    (refl : Nat → Bool) :
    ∃ l, orderOctants dim hasRefl hasVac refl none = some l ∧ l.Perm (List.range (2 ^ dim)) := by
  refine ⟨_, rfl, ?_⟩
  split_ifs with h
  · have := (C29_exchange_sort (vacuumCount dim refl)).1
    rw [vacuumCount_length] at this
    exact this
  · interval_cases dim <;> decide

/-- With both reflective and vacuum sides, octants entering through more non-reflective sides come
    first. -/
theorem C29_vacuum_first (dim : Nat) (h1 : 1 ≤ dim) (h3 : dim ≤ 3) (refl : Nat → Bool)
    (l : List Nat) (hl : orderOctants dim true true refl none = some l) (a b : Nat)
    (hab : a < b) (hb : b < 2 ^ dim) :
    vacSides dim refl (l.getD b 0) ≤ vacSides dim refl (l.getD a 0) := by
  obtain ⟨p, q⟩ := C29_exchange_sort (vacuumCount dim refl)
  have e : l = (exchangeSort (vacuumCount dim refl).length
      (List.range (vacuumCount dim refl).length, vacuumCount dim refl)).1 := by
    rw [vacuumCount_length]
    simpa [orderOctants] using hl.symm
  have lt : ∀ k < 2 ^ dim, l.getD k 0 < 2 ^ dim := by
    intro k hk
    rw [← e, vacuumCount_length] at p
    have hlen : k < l.length := by rw [p.length_eq]; simpa using hk
    have : l.getD k 0 ∈ l := by
      rw [List.getD_eq_getElem?_getD, List.getElem?_eq_getElem hlen]
      exact List.getElem_mem hlen
    exact List.mem_range.1 (p.mem_iff.1 this)
  have := q a b hab (by rw [vacuumCount_length]; exact hb)
  rw [← e] at this
  rw [vacuumCount_eq dim h1 h3 refl _ (lt b hb),
    vacuumCount_eq dim h1 h3 refl _ (lt a (by omega))] at this
  exact this

example : orderOctants 2 true true (fun s => s = 0) none = some [1, 2, 0, 3] := by decide

/-- An octant that enters through vacuum sides only is swept before every octant that has a
    reflective entry side. -/
theorem C29_vacuum_only_octants_lead (dim : Nat) (h1 : 1 ≤ dim) (h3 : dim ≤ 3) (refl : Nat → Bool)
    (l : List Nat) (hl : orderOctants dim true true refl none = some l) (a b : Nat)
    (ha : a < 2 ^ dim) (hb : b < 2 ^ dim)
    (hva : ∀ d < dim, refl (entry (l.getD a 0) d) = false)
    (hrb : ∃ d < dim, refl (entry (l.getD b 0) d) = true) : a < b := by
  have hfull : vacSides dim refl (l.getD a 0) = dim := by
    unfold vacSides
    rw [List.filter_eq_self.2]
    · simp
    · intro d hd; rw [hva d (List.mem_range.1 hd)]; rfl
  have hless : vacSides dim refl (l.getD b 0) < dim := by
    unfold vacSides
    obtain ⟨d, hd, hr⟩ := hrb
    have : ((List.range dim).filter fun d => !refl (entry (l.getD b 0) d)).length <
        (List.range dim).length := by
      apply List.length_filter_lt_length_iff_exists.2
      exact ⟨d, List.mem_range.2 hd, by rw [hr]; decide⟩
    simpa using this
  rcases Nat.lt_trichotomy a b with h | h | h
  · exact h
  · subst h; omega
  · have := C29_vacuum_first dim h1 h3 refl l hl b a h ha
    omega

example : orderOctants 1 true true (fun s => s = 0) none = some [1, 0] ∧
    (∀ d < 1, (fun s => s = 0 : Nat → Bool) (entry 1 d) = false) := by decide

/-- Only the length of a user-specified order is checked: a list that repeats one octant and
    omits the others is accepted. -/
theorem C29_user_order_unchecked :
    orderOctants 2 false true (fun _ => false) (some [0, 0, 0, 0]) = some [0, 0, 0, 0] ∧
    ¬ [0, 0, 0, 0].Perm (List.range 4) := by decide

/-- A user order that really lists every octant once is used unchanged, and an order of the wrong
    length (too short or too long) is refused. -/
theorem C29_user_order (dim : Nat) (hasRefl hasVac : Bool) (refl : Nat → Bool) (user : List Nat) :
    (user.Perm (List.range (2 ^ dim)) →
      orderOctants dim hasRefl hasVac refl (some user) = some user) ∧
    (user.length ≠ 2 ^ dim → orderOctants dim hasRefl hasVac refl (some user) = none) := by
  constructor
  · intro h
    have := h.length_eq
    rw [List.length_range] at this
    exact if_pos this
  · intro h
    exact if_neg h

example : orderOctants 2 true true (fun _ => false) (some [3, 1, 0, 2]) = some [3, 1, 0, 2] := by
  decide

end Detran.Sweep
