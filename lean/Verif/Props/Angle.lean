import Verif.Model.Angle
import Verif.Props.Sweep
import Verif.Props.Mesh
import Mathlib.Tactic.IntervalCases
import Mathlib.Tactic.LinearCombination
import Mathlib.Tactic.Ring
import Mathlib.Tactic.FieldSimp
import Mathlib.Tactic.NormNum
import Mathlib.Tactic.Linarith
import Mathlib.Algebra.BigOperators.Field

/-!
# Properties of the angular discretisation (C33 – C36, C64 – C66)
-/

namespace Detran.Angle

open Detran.Sweep Detran.Solver Finset

/-! ## C33 – octant tables -/

/-- Component of the inward normal of `side` in dimension `d`. -/
def inward (side d : Nat) : Int :=
  if side = 2 * d then 1 else if side = 2 * d + 1 then -1 else 0

/-- Does a direction of octant `o` with the given signs point into the box through `side`? -/
def PointsIn (sgn : Nat → Nat → Int) (side o : Nat) : Prop := 0 < inward side (side / 2) * sgn o (side / 2)

instance (sgn side o) : Decidable (PointsIn sgn side o) :=
  inferInstanceAs (Decidable (0 < _))

/-- On every side the incident octants are exactly the octants that point into the box, the
    outgoing octants exactly the others, each listed once. -/
theorem C33_tables (dim : Nat) (h1 : 1 ≤ dim) (h3 : dim ≤ 3) (side : Nat) (hs : side < 2 * dim) :
    (incidentOctants dim side).Nodup ∧ (outgoingOctants dim side).Nodup ∧
    (incidentOctants dim side).length = 2 ^ (dim - 1) ∧
    (outgoingOctants dim side).length = 2 ^ (dim - 1) ∧
    ∀ o, (o ∈ incidentOctants dim side ↔ o < 2 ^ dim ∧ PointsIn Signs.init.sgn side o) ∧
      (o ∈ outgoingOctants dim side ↔ o < 2 ^ dim ∧ ¬ PointsIn Signs.init.sgn side o) := by
  have nd : (incidentOctants dim side).Nodup ∧ (outgoingOctants dim side).Nodup := by
    interval_cases dim <;> interval_cases side <;> decide +kernel
  have key : (incidentOctants dim side).length = 2 ^ (dim - 1) ∧
      (outgoingOctants dim side).length = 2 ^ (dim - 1) ∧
      (∀ o ∈ incidentOctants dim side, o < 2 ^ dim ∧ PointsIn Signs.init.sgn side o) ∧
      (∀ o ∈ outgoingOctants dim side, o < 2 ^ dim ∧ ¬ PointsIn Signs.init.sgn side o) := by
    interval_cases dim <;> interval_cases side <;> decide +kernel
  have k7 : ∀ o < 2 ^ dim, (PointsIn Signs.init.sgn side o →
          (incidentOctants dim side).contains o = true) ∧
        (¬ PointsIn Signs.init.sgn side o → (outgoingOctants dim side).contains o = true) := by
    interval_cases dim <;> interval_cases side <;> decide +kernel
  obtain ⟨k3, k4, k5, k6⟩ := key
  exact ⟨nd.1, nd.2, k3, k4, fun o => ⟨⟨k5 o, fun h => List.contains_iff_mem.1 ((k7 o h.1).1 h.2)⟩,
    ⟨k6 o, fun h => List.contains_iff_mem.1 ((k7 o h.1).2 h.2)⟩⟩⟩

/-- The sweep's entry and exit sides agree with the same tables. -/
theorem C33_entry (dim : Nat) (h1 : 1 ≤ dim) (h3 : dim ≤ 3) (o d : Nat) (ho : o < 2 ^ dim)
    (hd : d < dim) :
    o ∈ incidentOctants dim (entry o d) ∧ o ∈ outgoingOctants dim (exit o d) := by
  have key : ∀ dim < 4, 1 ≤ dim → ∀ o < 2 ^ dim, ∀ d < dim,
      (incidentOctants dim (entry o d)).contains o = true ∧
      (outgoingOctants dim (exit o d)).contains o = true := by decide +kernel
  obtain ⟨k1, k2⟩ := key dim (by omega) h1 o ho d hd
  exact ⟨List.contains_iff_mem.1 k1, List.contains_iff_mem.1 k2⟩

/-- In adjoint mode the tables are not exchanged, so on every side each listed incident octant
    points out of the box and each listed outgoing octant points in. -/
theorem C33_adjoint_tables_reversed (dim : Nat) (h1 : 1 ≤ dim) (h3 : dim ≤ 3) (side : Nat)
    (hs : side < 2 * dim) (o : Nat) :
    (o ∈ incidentOctants dim side → ¬ PointsIn (Signs.init.setAdjoint true).sgn side o) ∧
    (o ∈ outgoingOctants dim side → PointsIn (Signs.init.setAdjoint true).sgn side o) := by
  have key : ∀ dim < 4, 1 ≤ dim → ∀ side < 2 * dim,
      (∀ o ∈ incidentOctants dim side,
        ¬ PointsIn (Signs.init.setAdjoint true).sgn side o) ∧
      (∀ o ∈ outgoingOctants dim side,
        PointsIn (Signs.init.setAdjoint true).sgn side o) := by decide +kernel
  exact ⟨(key dim (by omega) h1 side hs).1 o, (key dim (by omega) h1 side hs).2 o⟩

/-! ## C34 – adjoint switch -/

/-- After any sequence of calls the flag is the last argument and every direction cosine is the
    original one, negated exactly when the flag is set. -/
theorem C34_adjoint_history {K : Type} [Ring K] (cs : Nat → Nat → K) (calls : List Bool) (o a d : Nat)
    (ho : o < 8) (hd : d < 3) :
    let s := calls.foldl Signs.setAdjoint Signs.init
    s.adj = calls.getLast?.getD false ∧
    s.cosine cs o a d =
      if calls.getLast?.getD false then - Signs.init.cosine cs o a d
      else Signs.init.cosine cs o a d := by
  intro s
  have key : ∀ (calls : List Bool), (calls.foldl Signs.setAdjoint Signs.init).adj =
      calls.getLast?.getD false ∧ (calls.foldl Signs.setAdjoint Signs.init).sgn o d =
      if calls.getLast?.getD false then - octantSign o d else octantSign o d := by
    intro calls
    induction calls using List.reverseRecOn with
    | nil => exact ⟨rfl, by simp [Signs.init]⟩
    | append_singleton l v ih =>
        obtain ⟨i1, i2⟩ := ih
        rw [List.foldl_append]
        simp only [List.foldl_cons, List.foldl_nil, List.getLast?_concat, Option.getD_some]
        generalize List.foldl Signs.setAdjoint Signs.init l = s at *
        unfold Signs.setAdjoint
        split_ifs with h hv hv
        · exact ⟨h.symm, by rw [i2, ← i1, ← h, hv]; simp⟩
        · exact ⟨h.symm, by rw [i2, ← i1, ← h]; simp [hv]⟩
        · refine ⟨rfl, ?_⟩
          rw [i1] at h
          simp only [ho, hd, and_self, if_true]
          rw [i2]
          have : l.getLast?.getD false = false := by
            rw [hv] at h
            cases hh : l.getLast?.getD false
            · rfl
            · exact absurd hh.symm h
          rw [this]; simp
        · refine ⟨rfl, ?_⟩
          rw [i1] at h
          simp only [ho, hd, and_self, if_true]
          rw [i2]
          have : l.getLast?.getD false = true := by
            cases hh : l.getLast?.getD false
            · exact absurd (by rw [hh]; simpa using hv) h
            · rfl
          rw [this]; simp
  obtain ⟨k1, k2⟩ := key calls
  refine ⟨k1, ?_⟩
  show ((List.foldl Signs.setAdjoint Signs.init calls).sgn o d : K) * cs d a = _
  rw [k2]
  simp only [Signs.cosine, Signs.init]
  split_ifs <;> simp

example : ((([true, true, false, true] : List Bool).foldl Signs.setAdjoint Signs.init).cosine
    (fun _ _ => (1 / 2 : ℚ)) 1 0 0) = 1 / 2 := by decide +kernel

/-- A diamond-difference sweep run with the adjoint quadrature gives its cells the negative cosine
    `mu(0, a)`: a positive source with zero incident flux yields a negative flux. -/
theorem C34_adjoint_sweep_negative :
    (dd1 ((Signs.init.setAdjoint true).cosine (fun _ _ => (1 / 2 : ℚ)) 0 0 0) 1 (1 / 2) 1 0).1 < 0 := by
  decide +kernel

/-! ## C36 – angle numbering -/

/-- Octant and angle-in-octant number all angles exactly once. -/
theorem C36_index_bijective (nao no : Nat) (hn : 0 < nao) :
    (∀ o < no, ∀ a < nao, index nao o a < no * nao ∧
      index nao o a / nao = o ∧ index nao o a % nao = a) ∧
    ∀ k < no * nao, k / nao < no ∧ k % nao < nao ∧ index nao (k / nao) (k % nao) = k := by
  constructor
  · intro o ho a ha
    unfold index
    refine ⟨?_, ?_, ?_⟩
    · calc a + o * nao < nao + o * nao := by omega
        _ = (o + 1) * nao := by ring
        _ ≤ no * nao := Nat.mul_le_mul_right _ ho
    · rw [Nat.add_mul_div_right _ _ hn, Nat.div_eq_of_lt ha, Nat.zero_add]
    · rw [Nat.add_mul_mod_self_right, Nat.mod_eq_of_lt ha]
  · intro k hk
    refine ⟨Nat.div_lt_of_lt_mul (by rwa [Nat.mul_comm]), Nat.mod_lt _ hn, ?_⟩
    unfold index
    rw [Nat.mul_comm]; exact Nat.mod_add_div k nao

/-- `valid_index` accepts exactly the numbered pairs. -/
theorem C36_valid_index (dim nao o a : Nat) :
    validIndex dim nao o a = true ↔ o < 2 ^ dim ∧ a < nao := by
  simp [validIndex]

/-- Azimuth and polar indices of a product quadrature number the angles of an octant exactly once,
    with `azimuth` and `polar` the inverse. -/
theorem C36_product_bijective (na np : Nat) (hp : 0 < np) :
    (∀ a < na, ∀ p < np, angle np a p < na * np ∧
      azimuth (na * np) np (angle np a p) = a ∧ polar np (angle np a p) = p) ∧
    ∀ n < na * np, azimuth (na * np) np n < na ∧ polar np n < np ∧
      angle np (azimuth (na * np) np n) (polar np n) = n := by
  obtain ⟨h1, h2⟩ := C36_index_bijective np na hp
  constructor
  · intro a ha p hpp
    obtain ⟨k1, k2, k3⟩ := h1 a ha p hpp
    refine ⟨k1, ?_, k3⟩
    unfold azimuth
    rw [show angle np a p = index np a p from rfl, Nat.mod_eq_of_lt k1]; exact k2
  · intro n hn
    obtain ⟨k1, k2, k3⟩ := h2 n hn
    unfold azimuth polar
    rw [Nat.mod_eq_of_lt hn]
    exact ⟨k1, k2, k3⟩

example : index 6 2 5 = 17 ∧ angle 3 1 2 = 5 ∧ azimuth 6 3 5 = 1 ∧ polar 3 5 = 2 := by decide

/-! ## C35 – moment numbering -/

/-- Which orders `m` a degree `l` has in each dimension. -/
def HasOrder (dim l : Nat) (m : Int) : Prop :=
  -(l : Int) ≤ m ∧ m ≤ l ∧ (dim = 1 → m = 0) ∧ (dim = 2 → (m + l) % 2 = 0)

/-- Documented position of a moment. -/
def place (dim l : Nat) (m : Int) : Nat :=
  match dim with
  | 1 => l
  | 2 => l * (l + 1) / 2 + ((m + l) / 2).toNat
  | _ => l * l + (m + l).toNat

theorem filter_even (l : Nat) : (List.range (2 * l + 1)).filter (fun i => decide (i % 2 = 0)) =
    (List.range (l + 1)).map (2 * ·) := by
  induction l with
  | zero => decide
  | succ l ih =>
      rw [show 2 * (l + 1) + 1 = 2 * l + 1 + 1 + 1 by ring, List.range_succ, List.range_succ,
        List.filter_append, List.filter_append, ih, List.range_succ (n := l + 1), List.map_append]
      have h1 : (2 * l + 1) % 2 ≠ 0 := by omega
      have h2 : (2 * l + 1 + 1) % 2 = 0 := by omega
      have h3 : 2 * l + 1 + 1 = 2 * (l + 1) := by omega
      simp [h1, h2, h3]

theorem mIndex_two (l : Nat) : mIndex 2 l = (List.range (l + 1)).map (fun i : Nat => 2 * (i : Int) - l) := by
  show (mRange l).filter (fun m : Int => (m + l) % 2 = 0) = _
  unfold mRange
  rw [List.filter_map]
  have : ((fun m : Int => decide ((m + l) % 2 = 0)) ∘ fun i : Nat => (i : Int) - l) =
      fun i : Nat => decide (i % 2 = 0) := by
    funext i
    simp only [Function.comp]
    congr 1
    rw [sub_add_cancel]
    apply propext
    omega
  rw [this, filter_even, List.map_map]
  apply List.map_congr_left
  intro i _
  simp

/-- Number of orders of degree `l`. -/
def rowLen (dim l : Nat) : Nat := match dim with
  | 1 => 1 | 2 => l + 1 | _ => 2 * l + 1

/-- The `i`-th order of degree `l`. -/
def rowVal (dim l i : Nat) : Int := match dim with
  | 1 => 0 | 2 => 2 * (i : Int) - l | _ => (i : Int) - l

theorem mIndex_eq (dim l : Nat) : mIndex dim l = (List.range (rowLen dim l)).map (rowVal dim l) := by
  match dim with
  | 0 => rfl
  | 1 => rfl
  | 2 => exact mIndex_two l
  | _ + 3 => rfl

theorem rowVal_inj (dim l i j : Nat) (hi : i < rowLen dim l) (hj : j < rowLen dim l)
    (h : rowVal dim l i = rowVal dim l j) : i = j := by
  match dim with
  | 0 => simp [rowVal] at h; omega
  | 1 => simp [rowLen] at hi hj; omega
  | 2 => simp [rowVal] at h; omega
  | _ + 3 => simp [rowVal] at h; omega

/-- First position of degree `l`. -/
def rowStart (dim l : Nat) : Nat := match dim with
  | 1 => l | 2 => l * (l + 1) / 2 | _ => l * l

theorem rowStart_succ (dim l : Nat) : rowStart dim (l + 1) = rowStart dim l + rowLen dim l := by
  match dim with
  | 0 => simp [rowStart, rowLen]; ring
  | 1 => rfl
  | 2 =>
      simp only [rowStart, rowLen]
      rw [show (l + 1) * (l + 1 + 1) = l * (l + 1) + 2 * (l + 1) by ring,
        Nat.add_mul_div_left _ _ (by omega)]
  | _ + 3 => simp [rowStart, rowLen]; ring

/-- The list of pairs up to degree `< n`. -/
def pairsTo (dim n : Nat) : List (Nat × Int) :=
  (List.range n).flatMap (fun l => (mIndex dim l).map (fun m => (l, m)))

theorem pairsTo_succ (dim n : Nat) : pairsTo dim (n + 1) =
    pairsTo dim n ++ (mIndex dim n).map (fun m => (n, m)) := by
  unfold pairsTo; rw [List.range_succ, List.flatMap_append]; simp

theorem pairsTo_length (dim n : Nat) : (pairsTo dim n).length = rowStart dim n := by
  induction n with
  | zero => match dim with
    | 0 => rfl
    | 1 => rfl
    | 2 => rfl
    | _ + 3 => rfl
  | succ n ih =>
      rw [pairsTo_succ, List.length_append, ih, rowStart_succ, mIndex_eq]; simp

theorem pairsTo_get (dim n l i : Nat) (hl : l < n) (hi : i < rowLen dim l) :
    (pairsTo dim n)[rowStart dim l + i]? = some (l, rowVal dim l i) := by
  induction n with
  | zero => omega
  | succ n ih =>
      rw [pairsTo_succ]
      rcases Nat.lt_succ_iff_lt_or_eq.1 hl with h | h
      · have hlt : rowStart dim l + i < (pairsTo dim n).length := by
          by_contra hc
          have := ih h
          rw [List.getElem?_eq_none (by omega)] at this
          cases this
        rw [List.getElem?_append_left hlt]; exact ih h
      · subst h
        rw [List.getElem?_append_right (by rw [pairsTo_length]; omega), pairsTo_length,
          Nat.add_sub_cancel_left, mIndex_eq, List.map_map]
        simp [hi]

theorem pairsTo_surj (dim n k : Nat) (hk : k < rowStart dim n) :
    ∃ l < n, ∃ i < rowLen dim l, k = rowStart dim l + i := by
  induction n with
  | zero =>
      exfalso
      match dim with
      | 0 => simp [rowStart] at hk
      | 1 => simp [rowStart] at hk
      | 2 => simp [rowStart] at hk
      | _ + 3 => simp [rowStart] at hk
  | succ n ih =>
      rw [rowStart_succ] at hk
      by_cases h : k < rowStart dim n
      · obtain ⟨l, hl, i, hi, e⟩ := ih h
        exact ⟨l, by omega, i, hi, e⟩
      · exact ⟨n, by omega, k - rowStart dim n, by omega, by omega⟩

theorem hasOrder_iff (dim : Nat) (h1 : 1 ≤ dim) (h3 : dim ≤ 3) (l : Nat) (m : Int) :
    HasOrder dim l m ↔ ∃ i < rowLen dim l, m = rowVal dim l i := by
  interval_cases dim
  · simp only [HasOrder, rowLen, rowVal]
    constructor
    · rintro ⟨_, _, h, _⟩; exact ⟨0, by omega, h trivial⟩
    · rintro ⟨i, _, rfl⟩; refine ⟨by omega, by omega, fun _ => rfl, fun h => by omega⟩
  · simp only [HasOrder, rowLen, rowVal]
    constructor
    · rintro ⟨h1, h2, _, h⟩
      exact ⟨((m + l) / 2).toNat, by omega, by have := h trivial; omega⟩
    · rintro ⟨i, _, rfl⟩; refine ⟨by omega, by omega, fun h => by omega, fun _ => by omega⟩
  · simp only [HasOrder, rowLen, rowVal]
    constructor
    · rintro ⟨h1, h2, _, _⟩
      exact ⟨(m + l).toNat, by omega, by omega⟩
    · rintro ⟨i, _, rfl⟩; refine ⟨by omega, by omega, fun h => by omega, fun h => by omega⟩

theorem place_eq (dim : Nat) (h1 : 1 ≤ dim) (h3 : dim ≤ 3) (l i : Nat) (hi : i < rowLen dim l) :
    place dim l (rowVal dim l i) = rowStart dim l + i := by
  interval_cases dim
  · simp only [place, rowStart, rowLen] at *; omega
  · simp only [place, rowStart, rowLen, rowVal] at *
    congr 1
    omega
  · simp only [place, rowStart, rowLen, rowVal] at *
    congr 1
    omega

theorem numMoments_eq (dim : Nat) (h1 : 1 ≤ dim) (h3 : dim ≤ 3) (L : Nat) :
    numMoments dim L = rowStart dim (L + 1) := by
  interval_cases dim
  · rfl
  · simp only [numMoments, rowStart]
  · rfl

theorem findIdx_of {A : Type} (p : A → Bool) (l : List A) (k : Nat) (x : A) (hk : l[k]? = some x)
    (hp : p x = true) (hu : ∀ j y, l[j]? = some y → p y = true → j = k) : l.findIdx p = k := by
  have hlt : k < l.length := by
    by_contra h; rw [List.getElem?_eq_none (by omega)] at hk; cases hk
  have hmem : x ∈ l := List.mem_of_getElem? hk
  have hf : l.findIdx p < l.length := List.findIdx_lt_length_of_exists ⟨x, hmem, hp⟩
  have := List.findIdx_getElem (w := hf)
  exact hu _ _ (List.getElem?_eq_getElem hf) this

/-- The moment tables are filled exactly; the pairs are those documented, each once, in the
    documented place; `index` inverts `(l(i), m(i))`; a pair that does not exist gets the index
    `number_moments`. -/
theorem C35_moments (dim : Nat) (h1 : 1 ≤ dim) (h3 : dim ≤ 3) (L : Nat) :
    ∃ t, moments dim L = some t ∧ t.length = numMoments dim L ∧ t.Nodup ∧
      (∀ l m, (l, m) ∈ t ↔ l ≤ L ∧ HasOrder dim l m) ∧
      (∀ l ≤ L, ∀ m, HasOrder dim l m → t[place dim l m]? = some (l, m) ∧
        momentIndex t l m = place dim l m) ∧
      (∀ i < numMoments dim L, ∀ e, t[i]? = some e → momentIndex t e.1 e.2 = i) ∧
      ∀ l m, ¬ (l ≤ L ∧ HasOrder dim l m) → momentIndex t l m = numMoments dim L := by
  have hlen := pairsTo_length dim (L + 1)
  have hn := numMoments_eq dim h1 h3 L
  have hget : ∀ (k : Nat) (e : Nat × Int), (pairsTo dim (L + 1))[k]? = some e →
      e.1 ≤ L ∧ ∃ i < rowLen dim e.1, e.2 = rowVal dim e.1 i ∧ k = rowStart dim e.1 + i := by
    intro k e hk
    have hlt : k < rowStart dim (L + 1) := by
      rw [← hlen]
      by_contra h; rw [List.getElem?_eq_none (by omega)] at hk; cases hk
    obtain ⟨l, hl, i, hi, rfl⟩ := pairsTo_surj dim (L + 1) k hlt
    rw [pairsTo_get dim _ l i hl hi] at hk
    cases hk
    exact ⟨by simp only; omega, i, hi, rfl, rfl⟩
  have huniq : ∀ (k k' : Nat) (e : Nat × Int), (pairsTo dim (L + 1))[k]? = some e → (pairsTo dim (L + 1))[k']? = some e →
      k = k' := by
    intro k k' e hk hk'
    obtain ⟨_, i, hi, e1, rfl⟩ := hget k e hk
    obtain ⟨_, j, hj, e2, rfl⟩ := hget k' e hk'
    rw [rowVal_inj dim e.1 i j hi hj (e1.symm.trans e2)]
  have hidx : ∀ (k : Nat) (e : Nat × Int), (pairsTo dim (L + 1))[k]? = some e →
      momentIndex (pairsTo dim (L + 1)) e.1 e.2 = k := by
    intro k e hk
    refine findIdx_of _ _ k e hk (by simp) ?_
    intro j y hj hy
    simp only [Bool.and_eq_true, decide_eq_true_eq] at hy
    have : y = e := Prod.ext hy.1 hy.2
    subst this
    exact huniq j k y hj hk
  have hmem : ∀ l m, (l, m) ∈ pairsTo dim (L + 1) ↔ l ≤ L ∧ HasOrder dim l m := by
    intro l m
    rw [hasOrder_iff dim h1 h3]
    constructor
    · intro h
      obtain ⟨k, hk⟩ := List.mem_iff_getElem?.1 h
      obtain ⟨a, i, hi, e, _⟩ := hget k _ hk
      exact ⟨a, i, hi, e⟩
    · rintro ⟨hl, i, hi, rfl⟩
      exact List.mem_of_getElem? (pairsTo_get dim (L + 1) l i (by omega) hi)
  refine ⟨pairsTo dim (L + 1), ?_, by rw [hlen, hn], ?_, hmem, ?_, ?_, ?_⟩
  · show (if (pairsTo dim (L + 1)).length ≤ numMoments dim L then
      some (pairsTo dim (L + 1) ++
        List.replicate (numMoments dim L - (pairsTo dim (L + 1)).length) (0, 0)) else none) = _
    rw [hlen, hn, if_pos (le_refl _), Nat.sub_self]
    simp
  · rw [List.nodup_iff_getElem?_ne_getElem?]
    intro i j hij hj e
    have : (pairsTo dim (L + 1))[j]? = some ((pairsTo dim (L + 1))[j]) := List.getElem?_eq_getElem hj
    have := huniq i j _ (e.trans this) this
    omega
  · intro l hl m hm
    obtain ⟨i, hi, rfl⟩ := (hasOrder_iff dim h1 h3 l m).1 hm
    have := pairsTo_get dim (L + 1) l i (by omega) hi
    rw [place_eq dim h1 h3 l i hi]
    exact ⟨this, hidx _ _ this⟩
  · intro i _ e he
    exact hidx i e he
  · intro l m hno
    rw [hn, ← hlen]
    unfold momentIndex
    apply List.findIdx_eq_length_of_false
    intro e he
    by_contra hc
    simp only [Bool.not_eq_false, Bool.and_eq_true, decide_eq_true_eq] at hc
    apply hno
    rw [← hmem, ← hc.1, ← hc.2]
    exact he

/-- Third order in 2-D has ten moments; `(2, 0)` is number 4; `(2, 1)` does not exist. -/
example : (moments 2 3).map (fun t => (t.length, momentIndex t 2 0, momentIndex t 2 1)) =
    some (10, 4, 10) := by decide +kernel

end Detran.Angle
