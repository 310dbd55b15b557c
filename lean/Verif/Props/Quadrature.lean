import Verif.Props.Angle
import Verif.Lemmas.Sweep
import Mathlib.Algebra.Order.Field.Rat
import Mathlib.Algebra.Order.Field.Basic

/-!
# Product quadratures, base quadratures and spherical harmonics (C64 – C66)
-/

namespace Detran.Angle

open Detran.Sweep Detran.Solver Finset

/-! ## C64 – direction slots on a side -/

theorem putSlot_foldl {ι : Type} (key : ι → Nat × Nat) (e : ι → Entry) (l : List ι)
    (t : Nat → Nat → Option Entry)
    (hinj : ∀ x ∈ l, ∀ y ∈ l, key x = key y → e x = e y) (i j : Nat) :
    (∀ x ∈ l, key x = (i, j) → l.foldl (fun t x => putSlot t (key x) (e x)) t i j = some (e x)) ∧
    ((∀ x ∈ l, key x ≠ (i, j)) → l.foldl (fun t x => putSlot t (key x) (e x)) t i j = t i j) := by
  induction l using List.reverseRecOn with
  | nil => simp
  | append_singleton l y ih =>
      obtain ⟨i1, i2⟩ := ih (fun x hx z hz => hinj x (by simp [hx]) z (by simp [hz]))
      rw [List.foldl_append, List.foldl_cons, List.foldl_nil]
      constructor
      · intro x hx hk
        by_cases hy : key y = (i, j)
        · rw [hinj x hx y (by simp) (hk.trans hy.symm)]
          simp [putSlot, hy]
        · have hne : ¬ (i = (key y).1 ∧ j = (key y).2) := fun h => hy (Prod.ext h.1.symm h.2.symm)
          rw [putSlot, if_neg hne]
          rw [List.mem_append] at hx
          rcases hx with hx | hx
          · exact i1 x hx hk
          · rw [List.mem_singleton] at hx; subst hx; exact absurd hk hy
      · intro h
        have hy := h y (by simp)
        have hne : ¬ (i = (key y).1 ∧ j = (key y).2) := fun h => hy (Prod.ext h.1.symm h.2.symm)
        rw [putSlot, if_neg hne]
        exact i2 (fun x hx => h x (by simp [hx]))

/-- Quarter-turn direction of a side: which horizontal component grows to the left when looking
    into the box, and with which sign. -/
def leftOf (s : Nat) : Nat × Int :=
  if s = 0 then (1, 1) else if s = 1 then (1, -1) else if s = 2 then (0, -1) else (0, 1)

/-- The octants listed on a side, incident or outgoing. -/
def sideOctants (out : Bool) (dim s : Nat) : List Nat :=
  if out then outgoingOctants dim s else incidentOctants dim s

/-- The slot table of a side, incident or outgoing. -/
def sideTable (out : Bool) (dim na np s : Nat) : Nat → Nat → Option Entry :=
  if out then outTable dim na np s else incTable dim na np s

/-- Slot of position `oo`, azimuth `a`, polar `p`. -/
def slotOf (out : Bool) (dim na np s oo a p : Nat) : Nat × Nat :=
  if out then outSlot dim na np s ((incidentOctants dim s).getD oo 0)
      ((outgoingOctants dim s).getD oo 0) a p
  else incSlot dim na np s ((incidentOctants dim s).getD oo 0) a p

theorem sideTable_eq (out : Bool) (dim na np s : Nat) : sideTable out dim na np s =
    (pairs (List.range ((dim - 1) * 2)) (na * np)).foldl (fun t x =>
      putSlot t (slotOf out dim na np s x.1 (azimuth (na * np) np x.2) (polar np x.2))
        ⟨(sideOctants out dim s).getD x.1 0, x.2, x.1⟩) (fun _ _ => none) := by
  unfold sideTable
  cases out
  · simp only [Bool.false_eq_true, if_false, incTable, pairs, List.foldl_flatMap, List.foldl_map]
    rfl
  · simp only [if_true, outTable, pairs, List.foldl_flatMap, List.foldl_map]
    rfl

/-- Sides of a box. -/
def ValidSide (dim s : Nat) : Prop := (dim = 2 ∨ dim = 3) ∧ s < 2 * dim

theorem slot_bounds (out : Bool) (dim na np s oo a p : Nat) (hv : ValidSide dim s)
    (ho : oo < (dim - 1) * 2) (ha : a < na) (hp : p < np) :
    (slotOf out dim na np s oo a p).1 < numAzi na s ∧
    (slotOf out dim na np s oo a p).2 < numPol dim np s := by
  obtain ⟨hd, hs⟩ := hv
  rcases hd with rfl | rfl
  · cases out <;> interval_cases s <;> interval_cases oo <;>
      simp [slotOf, incSlot, outSlot, incidentOctants, outgoingOctants, polV, numAzi, numPol] <;> omega
  · cases out <;> interval_cases s <;> interval_cases oo <;>
      simp [slotOf, incSlot, outSlot, incidentOctants, outgoingOctants, polV, numAzi, numPol, aziH] <;>
      omega

theorem slot_inj (out : Bool) (dim na np s oo a p oo' a' p' : Nat) (hv : ValidSide dim s)
    (ho : oo < (dim - 1) * 2) (ha : a < na) (hp : p < np)
    (ho' : oo' < (dim - 1) * 2) (ha' : a' < na) (hp' : p' < np)
    (h : slotOf out dim na np s oo a p = slotOf out dim na np s oo' a' p') :
    oo = oo' ∧ a = a' ∧ p = p' := by
  obtain ⟨hd, hs⟩ := hv
  rcases hd with rfl | rfl
  · cases out <;> interval_cases s <;> interval_cases oo <;> interval_cases oo' <;>
      simp [slotOf, incSlot, outSlot, incidentOctants, outgoingOctants, polV] at h ⊢ <;> omega
  · cases out <;> interval_cases s <;> interval_cases oo <;> interval_cases oo' <;>
      simp [slotOf, incSlot, outSlot, incidentOctants, outgoingOctants, polV, aziH] at h ⊢ <;> omega

theorem slot_surj (out : Bool) (dim na np s i j : Nat) (hv : ValidSide dim s)
    (hi : i < numAzi na s) (hj : j < numPol dim np s) :
    ∃ oo < (dim - 1) * 2, ∃ a < na, ∃ p < np, slotOf out dim na np s oo a p = (i, j) := by
  let A := range ((dim - 1) * 2) ×ˢ (range na ×ˢ range np)
  let B := range (numAzi na s) ×ˢ range (numPol dim np s)
  let f : Nat × Nat × Nat → Nat × Nat := fun x => slotOf out dim na np s x.1 x.2.1 x.2.2
  have hsub : A.image f ⊆ B := by
    intro y hy
    obtain ⟨x, hx, rfl⟩ := mem_image.1 hy
    simp only [A, mem_product, mem_range] at hx
    simp only [B, mem_product, mem_range]
    exact slot_bounds out dim na np s x.1 x.2.1 x.2.2 hv hx.1 hx.2.1 hx.2.2
  have hcard : B.card ≤ (A.image f).card := by
    rw [card_image_of_injOn]
    · simp only [A, B, card_product, card_range]
      obtain ⟨hd, hs⟩ := hv
      unfold numAzi numPol
      rcases hd with rfl | rfl
      · rw [if_pos (by omega), if_pos (by omega)]
        simp [Nat.mul_assoc]
      · by_cases h4 : s < 4
        · simp only [if_pos h4]
          norm_num
          apply le_of_eq; ring
        · simp only [if_neg h4]
          norm_num
          apply le_of_eq; ring
    · intro x hx y hy h
      simp only [A, coe_product, coe_range, Set.mem_prod, Set.mem_Iio] at hx hy
      obtain ⟨e1, e2, e3⟩ := slot_inj out dim na np s _ _ _ _ _ _ hv hx.1 hx.2.1 hx.2.2 hy.1
        hy.2.1 hy.2.2 h
      exact Prod.ext e1 (Prod.ext e2 e3)
  have := eq_of_subset_of_card_le hsub hcard
  have hm : (i, j) ∈ A.image f := by
    rw [this]; simp only [B, mem_product, mem_range]; exact ⟨hi, hj⟩
  obtain ⟨x, hx, e⟩ := mem_image.1 hm
  simp only [A, mem_product, mem_range] at hx
  exact ⟨x.1, hx.1, x.2.1, hx.2.1, x.2.2, hx.2.2, e⟩

/-- What a slot holds: position, azimuth and polar index of its entry. -/
theorem table_entry (out : Bool) (dim na np s oo a p : Nat) (hv : ValidSide dim s)
    (ho : oo < (dim - 1) * 2) (ha : a < na) (hp : p < np) :
    sideTable out dim na np s (slotOf out dim na np s oo a p).1 (slotOf out dim na np s oo a p).2 =
      some ⟨(sideOctants out dim s).getD oo 0, angle np a p, oo⟩ := by
  obtain ⟨k1, k2, k3⟩ := (C36_product_bijective na np (by omega)).1 a ha p hp
  rw [sideTable_eq]
  have := (putSlot_foldl
    (fun x : Nat × Nat => slotOf out dim na np s x.1 (azimuth (na * np) np x.2) (polar np x.2))
    (fun x : Nat × Nat => (⟨(sideOctants out dim s).getD x.1 0, x.2, x.1⟩ : Entry))
    (pairs (List.range ((dim - 1) * 2)) (na * np)) (fun _ _ => none) ?_
    (slotOf out dim na np s oo a p).1 (slotOf out dim na np s oo a p).2).1 (oo, angle np a p)
    (mem_pairs.2 ⟨List.mem_range.2 ho, k1⟩) (by simp only [k2, k3])
  · exact this
  · intro x hx y hy h
    rw [mem_pairs, List.mem_range] at hx hy
    obtain ⟨x1, x2, x3⟩ := (C36_product_bijective na np (by omega)).2 x.2 hx.2
    obtain ⟨y1, y2, y3⟩ := (C36_product_bijective na np (by omega)).2 y.2 hy.2
    obtain ⟨e1, e2, e3⟩ := slot_inj out dim na np s _ _ _ _ _ _ hv hx.1 x1 x2 hy.1 y1 y2 h
    have : x.2 = y.2 := by rw [← x3, ← y3, e2, e3]
    simp only [this, e1]

/-- Every slot of a side holds exactly one direction: an angle of an octant listed for that side at
    the recorded position; and every direction of the side sits in exactly one slot. -/
theorem C64_slots_complete (out : Bool) (dim na np s : Nat) (hv : ValidSide dim s) :
    (∀ i < numAzi na s, ∀ j < numPol dim np s, ∃ e, sideTable out dim na np s i j = some e ∧
      (sideOctants out dim s)[e.io]? = some e.octant ∧ e.angle < na * np) ∧
    ∀ io o n, (sideOctants out dim s)[io]? = some o → n < na * np →
      ∃ k : Nat × Nat, (k.1 < numAzi na s ∧ k.2 < numPol dim np s ∧
        sideTable out dim na np s k.1 k.2 = some ⟨o, n, io⟩) ∧
        ∀ i < numAzi na s, ∀ j < numPol dim np s,
          sideTable out dim na np s i j = some ⟨o, n, io⟩ → (i, j) = k := by
  have hlen : (sideOctants out dim s).length = (dim - 1) * 2 := by
    obtain ⟨hd, hs⟩ := hv
    rcases hd with rfl | rfl <;> cases out <;> interval_cases s <;> rfl
  have hget : ∀ oo < (dim - 1) * 2, (sideOctants out dim s)[oo]? =
      some ((sideOctants out dim s).getD oo 0) := by
    intro oo h
    rw [List.getD_eq_getElem?_getD, List.getElem?_eq_getElem (by omega)]; rfl
  constructor
  · intro i hi j hj
    obtain ⟨oo, ho, a, ha, p, hp, e⟩ := slot_surj out dim na np s i j hv hi hj
    refine ⟨⟨(sideOctants out dim s).getD oo 0, angle np a p, oo⟩, ?_, hget oo ho, ((C36_product_bijective na np (by omega)).1 a ha p hp).1⟩
    have := table_entry out dim na np s oo a p hv ho ha hp
    rw [e] at this
    exact this
  · intro io o n hio hn
    have ho : io < (dim - 1) * 2 := by
      rw [← hlen]; by_contra h; rw [List.getElem?_eq_none (by omega)] at hio; cases hio
    have hnp : 0 < np := by
      rcases Nat.eq_zero_or_pos np with h | h
      · subst h; simp at hn
      · exact h
    obtain ⟨h1, h2, h3⟩ := (C36_product_bijective na np hnp).2 n hn
    have hb := slot_bounds out dim na np s io _ _ hv ho h1 h2
    have ht := table_entry out dim na np s io _ _ hv ho h1 h2
    rw [h3] at ht
    have hoo : (sideOctants out dim s).getD io 0 = o := by
      have := hget io ho; rw [hio] at this; exact (Option.some.inj this).symm
    rw [hoo] at ht
    refine ⟨slotOf out dim na np s io (azimuth (na * np) np n) (polar np n), ⟨hb.1, hb.2, ht⟩, ?_⟩
    intro i hi j hj hij
    obtain ⟨oo, ho', a, ha, p, hp, e⟩ := slot_surj out dim na np s i j hv hi hj
    have := table_entry out dim na np s oo a p hv ho' ha hp
    rw [e] at this
    simp only at this
    rw [hij] at this
    have := Option.some.inj this
    obtain ⟨_, rfl, rfl⟩ : o = _ ∧ n = _ ∧ io = _ := by
      exact ⟨congrArg Entry.octant this, congrArg Entry.angle this, congrArg Entry.io this⟩
    obtain ⟨k1, k2, k3⟩ := (C36_product_bijective na np hnp).1 a ha p hp
    rw [k2, k3]; exact e.symm

example : sideTable false 3 2 2 0 3 0 = some ⟨0, 3, 3⟩ ∧ sideTable true 2 2 2 2 0 1 = some ⟨2, 1, 0⟩ ∧
    ValidSide 3 0 ∧ ValidSide 2 2 := by unfold ValidSide; decide

section order
variable {K : Type} [Field K] [LinearOrder K] [IsStrictOrderedRing K]

/-- Component `d` (0: x, 1: y) of a table entry's direction, up to its common polar factor: the
    octant's sign times the azimuth cosine or sine. -/
def lateral (cosp sinp : Nat → K) (na np d : Nat) (e : Entry) : K :=
  (octantSign e.octant d : K) *
    (if d = 0 then cosp (azimuth (na * np) np e.angle) else sinp (azimuth (na * np) np e.angle))

/-- z component of a table entry's direction. -/
def vertical (cost : Nat → K) (np : Nat) (e : Entry) : K :=
  (octantSign e.octant 2 : K) * cost (polar np e.angle)

/-- On the four vertical sides the azimuth slots run from right to left as seen by a particle
    travelling in the side's direction: the component along the left-hand tangent is strictly
    increasing. -/
theorem C64_azimuth_order (out : Bool) (dim na np s : Nat) (hv : ValidSide dim s) (h4 : s < 4)
    (cosp sinp : Nat → K) (hc : ∀ a a', a < a' → a' < na → cosp a' < cosp a)
    (hs : ∀ a a', a < a' → a' < na → sinp a < sinp a') (hc0 : ∀ a < na, 0 < cosp a)
    (hs0 : ∀ a < na, 0 < sinp a) (i i' j j' : Nat) (hi : i < i') (hi' : i' < numAzi na s)
    (hj : j < numPol dim np s) (hj' : j' < numPol dim np s) (e e' : Entry)
    (he : sideTable out dim na np s i j = some e) (he' : sideTable out dim na np s i' j' = some e') :
    let t : K := (leftOf s).2 * (if out then -1 else 1)
    t * lateral cosp sinp na np (leftOf s).1 e < t * lateral cosp sinp na np (leftOf s).1 e' := by
  intro t
  let F : Nat → K := fun i =>
    if s < 2 then (if i < na then - sinp (na - 1 - i) else sinp (i - na))
    else (if i < na then - cosp i else cosp (2 * na - 1 - i))
  have hF : ∀ i i', i < i' → i' < 2 * na → F i < F i' := by
    intro i i' h h'
    simp only [F]
    by_cases h2 : s < 2
    · simp only [if_pos h2]
      split_ifs with a b b
      · have := hs (na - 1 - i') (na - 1 - i) (by omega) (by omega); linarith
      · have := hs0 (na - 1 - i) (by omega); have := hs0 (i' - na) (by omega); linarith
      · omega
      · exact hs _ _ (by omega) (by omega)
    · simp only [if_neg h2]
      split_ifs with a b b
      · have := hc i i' h (by omega); linarith
      · have := hc0 i (by omega); have := hc0 (2 * na - 1 - i') (by omega); linarith
      · omega
      · exact hc _ _ (by omega) (by omega)
  have key : ∀ i < numAzi na s, ∀ j < numPol dim np s, ∀ e, sideTable out dim na np s i j = some e →
      t * lateral cosp sinp na np (leftOf s).1 e = F i := by
    intro i hi j hj e he
    obtain ⟨oo, ho, a, ha, p, hp, hk⟩ := slot_surj out dim na np s i j hv hi hj
    have := table_entry out dim na np s oo a p hv ho ha hp
    rw [hk] at this
    simp only at this
    rw [he] at this
    cases Option.some.inj this
    obtain ⟨_, k2, _⟩ := (C36_product_bijective na np (by omega)).1 a ha p hp
    have hk1 : (slotOf out dim na np s oo a p).1 = i := by rw [hk]
    simp only [lateral, k2, t, F]
    obtain ⟨hd, _⟩ := hv
    rcases hd with rfl | rfl <;> cases out <;> interval_cases s <;> interval_cases oo <;>
      simp [slotOf, incSlot, outSlot, incidentOctants, outgoingOctants, sideOctants, leftOf,
        octantSign] at hk1 ⊢ <;> split_ifs <;> first
      | (exfalso; omega)
      | rw [show na - 1 - i = a by omega]
      | rw [show i - na = a by omega]
      | rw [show 2 * na - 1 - i = a by omega]
      | rw [show i = a by omega]
  rw [key i (by omega) j hj e he, key i' hi' j' hj' e' he']
  exact hF i i' hi (by unfold numAzi at hi'; rwa [if_pos h4] at hi')

/-- On the two horizontal sides the azimuth slots run counterclockwise: the first half points to
    positive y with x strictly decreasing, the second half to negative y with x strictly
    increasing. -/
theorem C64_azimuth_order_horizontal (out : Bool) (na np s : Nat) (hs4 : 4 ≤ s) (hs6 : s < 6)
    (cosp sinp : Nat → K) (hc : ∀ a a', a < a' → a' < na → cosp a' < cosp a)
    (hc0 : ∀ a < na, 0 < cosp a) (hs0 : ∀ a < na, 0 < sinp a) (i j : Nat)
    (hi : i < numAzi na s) (hj : j < numPol 3 np s) (e : Entry)
    (he : sideTable out 3 na np s i j = some e) :
    (i < 2 * na → 0 < lateral cosp sinp na np 1 e) ∧
    (2 * na ≤ i → lateral cosp sinp na np 1 e < 0) ∧
    ∀ i' < i, ∀ j' < numPol 3 np s, ∀ e', sideTable out 3 na np s i' j' = some e' →
      (i < 2 * na → lateral cosp sinp na np 0 e < lateral cosp sinp na np 0 e') ∧
      (2 * na ≤ i' → lateral cosp sinp na np 0 e' < lateral cosp sinp na np 0 e) := by
  have hv : ValidSide 3 s := ⟨Or.inr rfl, by omega⟩
  let F : Nat → K := fun i => if i < na then cosp i else if i < 2 * na then - cosp (2 * na - 1 - i)
    else if i < 3 * na then - cosp (i - 2 * na) else cosp (4 * na - 1 - i)
  have key : ∀ i < numAzi na s, ∀ j < numPol 3 np s, ∀ e, sideTable out 3 na np s i j = some e →
      lateral cosp sinp na np 0 e = F i ∧ (i < 2 * na → 0 < lateral cosp sinp na np 1 e) ∧
      (2 * na ≤ i → lateral cosp sinp na np 1 e < 0) := by
    intro i hi j hj e he
    obtain ⟨oo, ho, a, ha, p, hp, hk⟩ := slot_surj out 3 na np s i j hv hi hj
    have := table_entry out 3 na np s oo a p hv ho ha hp
    rw [hk] at this
    simp only at this
    rw [he] at this
    cases Option.some.inj this
    obtain ⟨_, k2, _⟩ := (C36_product_bijective na np (by omega)).1 a ha p hp
    have hk1 : (slotOf out 3 na np s oo a p).1 = i := by rw [hk]
    have hpos := hs0 a ha
    simp only [lateral, k2, F]
    clear F
    cases out <;> interval_cases s <;> interval_cases oo <;>
      simp [slotOf, incSlot, outSlot, aziH, incidentOctants, outgoingOctants, sideOctants,
        octantSign] at hk1 ⊢ <;> refine ⟨?_, fun h => ?_, fun h => ?_⟩ <;> first
      | (exfalso; omega)
      | exact hpos
      | (split_ifs <;> first
        | (exfalso; omega)
        | rw [show 2 * na - 1 - i = a by omega]
        | rw [show i - 2 * na = a by omega]
        | rw [show 4 * na - 1 - i = a by omega]
        | rw [show i = a by omega])
  obtain ⟨k1, k2, k3⟩ := key i hi j hj e he
  refine ⟨k2, k3, ?_⟩
  intro i' hi' j' hj' e' he'
  obtain ⟨l1, -, -⟩ := key i' (by omega) j' hj' e' he'
  have h4 : i < 4 * na := by unfold numAzi at hi; rwa [if_neg (by omega)] at hi
  rw [k1, l1]
  simp only [F]
  constructor
  · intro h2
    split_ifs with a b c <;> first
      | (exfalso; omega)
      | exact hc _ _ (by omega) (by omega)
      | (have := hc0 i' (by omega); have := hc0 (2 * na - 1 - i) (by omega); linarith)
      | (have := hc (2 * na - 1 - i) (2 * na - 1 - i') (by omega) (by omega); linarith)
  · intro h2
    split_ifs with a b c <;> first
      | (exfalso; omega)
      | exact hc _ _ (by omega) (by omega)
      | (have := hc (i' - 2 * na) (i - 2 * na) (by omega) (by omega); linarith)
      | (have := hc0 (i' - 2 * na) (by omega); have := hc0 (4 * na - 1 - i) (by omega); linarith)

/-- In three dimensions the polar slots run from the top down on every side: z strictly
    decreases. -/
theorem C64_polar_order (out : Bool) (na np s : Nat) (hs6 : s < 6) (cost : Nat → K)
    (hc : ∀ p p', p < p' → p' < np → cost p < cost p') (hc0 : ∀ p < np, 0 < cost p)
    (i i' j j' : Nat) (hi : i < numAzi na s) (hi' : i' < numAzi na s) (hj : j < j')
    (hj' : j' < numPol 3 np s) (e e' : Entry) (he : sideTable out 3 na np s i j = some e)
    (he' : sideTable out 3 na np s i' j' = some e') :
    vertical cost np e' < vertical cost np e := by
  have hv : ValidSide 3 s := ⟨Or.inr rfl, by omega⟩
  let F : Nat → K := fun j => if s < 4 then (if j < np then cost (np - 1 - j) else - cost (j - np))
    else if (s = 5 ∧ out = false) ∨ (s = 4 ∧ out = true) then - cost j else cost (np - 1 - j)
  have key : ∀ i < numAzi na s, ∀ j < numPol 3 np s, ∀ e, sideTable out 3 na np s i j = some e →
      vertical cost np e = F j := by
    intro i hi j hj e he
    obtain ⟨oo, ho, a, ha, p, hp, hk⟩ := slot_surj out 3 na np s i j hv hi hj
    have := table_entry out 3 na np s oo a p hv ho ha hp
    rw [hk] at this
    simp only at this
    rw [he] at this
    cases Option.some.inj this
    obtain ⟨_, _, k3⟩ := (C36_product_bijective na np (by omega)).1 a ha p hp
    have hk1 : (slotOf out 3 na np s oo a p).2 = j := by rw [hk]
    simp only [vertical, k3, F]
    clear F
    cases out <;> interval_cases s <;> interval_cases oo <;>
      simp [slotOf, incSlot, outSlot, polV, incidentOctants, outgoingOctants, sideOctants,
        octantSign] at hk1 ⊢ <;> first
      | (rw [if_pos (by omega), show np - 1 - j = p by omega])
      | (rw [if_neg (by omega), show j - np = p by omega])
      | (rw [show np - 1 - j = p by omega])
      | (rw [hk1])
  rw [key i hi j (by omega) e he, key i' hi' j' hj' e' he']
  simp only [F]
  by_cases h4 : s < 4
  · have hn : j' < 2 * np := by unfold numPol at hj'; rw [if_pos h4] at hj'; simpa using hj'
    simp only [if_pos h4]
    split_ifs with a b b
    · exact hc _ _ (by omega) (by omega)
    · omega
    · have := hc0 (np - 1 - j) (by omega); have := hc0 (j' - np) (by omega); linarith
    · have := hc (j - np) (j' - np) (by omega) (by omega); linarith
  · have hn : j' < np := by unfold numPol at hj'; rwa [if_neg h4] at hj'
    simp only [if_neg h4]
    split_ifs with a
    · have := hc j j' hj hn; linarith
    · exact hc _ _ (by omega) (by omega)

/-- Two azimuths and one polar level on the west side. -/
example : ∃ e e', sideTable false 2 2 1 0 1 0 = some e ∧ sideTable false 2 2 1 0 2 0 = some e' ∧
    lateral (fun a => [4/5, 3/5].getD a 0) (fun a => [3/5, 4/5].getD a (0 : ℚ)) 2 1 1 e = -3/5 ∧
    lateral (fun a => [4/5, 3/5].getD a 0) (fun a => [3/5, 4/5].getD a (0 : ℚ)) 2 1 1 e' = 3/5 :=
  ⟨⟨3, 0, 0⟩, ⟨0, 0, 1⟩, by decide +kernel⟩

end order

end Detran.Angle
