import Verif.Model.Boundary
import Verif.Props.Angle
import Verif.Props.SweepSign
import Mathlib.Tactic.IntervalCases

/-!
# Boundary conditions (C30, C31, C32, C67)
-/

namespace Detran.Boundary

open Detran.Sweep Detran.Angle Finset

/-! ## Specification -/

/-- Does octant `o` (forward signs) enter the box through `side`? -/
abbrev Enters (side o : Nat) : Prop := PointsIn octantSign side o

/-- `o'` is the mirror image of `o` in `side`: only the normal component changes sign. -/
def Mirror (dim side o o' : Nat) : Prop :=
  o' < 2 ^ dim ∧ ∀ d < dim, octantSign o' d = if d = side / 2 then - octantSign o d else octantSign o d

instance (dim side o o') : Decidable (Mirror dim side o o') :=
  inferInstanceAs (Decidable (_ ∧ _))

theorem sgn_init : Signs.init.sgn = octantSign := rfl

/-! ## C30: the pair table -/

/-- On every side the table pairs each octant that enters with its mirror image, and nothing else. -/
theorem C30_pairs (dim : Nat) (h1 : 1 ≤ dim) (h3 : dim ≤ 3) (side : Nat) (hs : side < 2 * dim) :
    ((reflPairs dim side).map Prod.fst).Nodup ∧
    ∀ o o', (o, o') ∈ reflPairs dim side ↔
      o < 2 ^ dim ∧ Enters side o ∧ Mirror dim side o o' := by
  have nd : ((reflPairs dim side).map Prod.fst).Nodup := by
    interval_cases dim <;> interval_cases side <;> decide +kernel
  have k1 : ∀ p ∈ reflPairs dim side, p.1 < 2 ^ dim ∧ Enters side p.1 ∧ Mirror dim side p.1 p.2 := by
    interval_cases dim <;> interval_cases side <;> decide +kernel
  have k2 : ∀ o < 2 ^ dim, ∀ o' < 2 ^ dim, Enters side o → Mirror dim side o o' →
      (reflPairs dim side).contains (o, o') = true := by
    interval_cases dim <;> interval_cases side <;> decide +kernel
  exact ⟨nd, fun o o' => ⟨fun h => k1 _ h, fun h =>
    List.contains_iff_mem.1 (k2 o h.1 o' h.2.2.1 h.2.1 h.2.2)⟩⟩

/-- Every octant that enters has a mirror image, which leaves through the same side. -/
theorem C30_mirror_exists (dim : Nat) (h1 : 1 ≤ dim) (h3 : dim ≤ 3) (side : Nat)
    (hs : side < 2 * dim) (o : Nat) (ho : o < 2 ^ dim) (he : Enters side o) :
    ∃ o', Mirror dim side o o' ∧ ¬ Enters side o' := by
  have k : ∀ o < 2 ^ dim, Enters side o → ∃ o' < 2 ^ dim, Mirror dim side o o' ∧ ¬ Enters side o' := by
    interval_cases dim <;> interval_cases side <;> decide +kernel
  obtain ⟨o', _, h⟩ := k o ho he
  exact ⟨o', h⟩

theorem mirror_leaves (dim : Nat) (h1 : 1 ≤ dim) (h3 : dim ≤ 3) (side : Nat) (hs : side < 2 * dim)
    (o o' : Nat) (ho : o < 2 ^ dim) (he : Enters side o) (hm : Mirror dim side o o') :
    ¬ Enters side o' := by
  have k : ∀ o < 2 ^ dim, ∀ o' < 2 ^ dim, Enters side o → Mirror dim side o o' → ¬ Enters side o' := by
    interval_cases dim <;> interval_cases side <;> decide +kernel
  exact k o ho o' hm.1 he hm

/-! ## Loops -/

section loops
variable {F : Type}

theorem inner_spec (na tgt src i j : Nat) (hsep : tgt ≠ src ∨ i ≠ j) (b : Bd F) (f o a : Nat) :
    (List.range na).foldl (fun b a => setB b tgt i a (b src j a)) b f o a =
      if f = tgt ∧ o = i ∧ a < na then b src j a else b f o a := by
  induction na generalizing f o a with
  | zero => simp
  | succ n ih =>
    rw [List.range_succ, List.foldl_append]
    simp only [List.foldl_cons, List.foldl_nil]
    by_cases h : f = tgt ∧ o = i ∧ a = n
    · obtain ⟨rfl, rfl, rfl⟩ := h
      rw [setB_same, ih, if_neg (by rintro ⟨_, _, h⟩; omega), if_pos ⟨rfl, rfl, by omega⟩]
    · rw [setB_other _ _ _ _ _ _ _ _ h, ih]
      by_cases h2 : f = tgt ∧ o = i ∧ a < n
      · rw [if_pos h2, if_pos ⟨h2.1, h2.2.1, by omega⟩]
      · rw [if_neg h2, if_neg (by rintro ⟨h3, h4, h5⟩; exact h2 ⟨h3, h4, by
          have : a ≠ n := fun h6 => h ⟨h3, h4, h6⟩
          omega⟩)]

theorem pairs_spec (na tgt src : Nat) (L : List (Nat × Nat))
    (hsep : tgt ≠ src ∨ ∀ p ∈ L, ∀ q ∈ L, p.1 ≠ q.2) (hnd : (L.map Prod.fst).Nodup) (b : Bd F) :
    (∀ p ∈ L, ∀ a < na, L.foldl (fun b p =>
      (List.range na).foldl (fun b a => setB b tgt p.1 a (b src p.2 a)) b) b tgt p.1 a = b src p.2 a) ∧
    ∀ f o a, ¬ (f = tgt ∧ a < na ∧ ∃ p ∈ L, p.1 = o) → L.foldl (fun b p =>
      (List.range na).foldl (fun b a => setB b tgt p.1 a (b src p.2 a)) b) b f o a = b f o a := by
  induction L generalizing b with
  | nil => exact ⟨fun p hp => absurd hp (by simp), fun _ _ _ _ => rfl⟩
  | cons q L ih =>
    have hq : tgt ≠ src ∨ q.1 ≠ q.2 := hsep.imp id fun h => h q (by simp) q (by simp)
    rw [List.map_cons, List.nodup_cons] at hnd
    have ih' := ih (hsep.imp id fun h p hp r hr => h p (by simp [hp]) r (by simp [hr])) hnd.2
      ((List.range na).foldl (fun b a => setB b tgt q.1 a (b src q.2 a)) b)
    simp only [List.foldl_cons]
    refine ⟨fun p hp a ha => ?_, fun f o a h => ?_⟩
    · rcases List.mem_cons.1 hp with rfl | hp'
      · rw [ih'.2 _ _ _ (by
          rintro ⟨_, _, r, hr, hr1⟩
          exact hnd.1 (List.mem_map.2 ⟨r, hr, hr1⟩)), inner_spec _ _ _ _ _ hq, if_pos ⟨rfl, rfl, ha⟩]
      · rw [ih'.1 p hp' a ha, inner_spec _ _ _ _ _ hq, if_neg]
        rintro ⟨h1, h2, _⟩
        rcases hsep with h3 | h3
        · exact h3 h1.symm
        · exact h3 q (by simp) p hp h2.symm
    · rw [ih'.2 f o a (fun ⟨h1, h2, p, hp, h3⟩ => h ⟨h1, h2, p, by simp [hp], h3⟩),
        inner_spec _ _ _ _ _ hq, if_neg (fun ⟨h1, h2, h3⟩ => h ⟨h1, h3, q, by simp, h2.symm⟩)]

/-! ## C30: effect of the updates -/

/-- `update(g)` on a reflecting side: every entering flux becomes the flux of the mirror-image
    direction as it was before the call, and nothing else changes. -/
theorem C30_update (dim : Nat) (h1 : 1 ≤ dim) (h3 : dim ≤ 3) (na side : Nat) (hs : side < 2 * dim)
    (b : Bd F) :
    (∀ o o' a, o < 2 ^ dim → Enters side o → Mirror dim side o o' → a < na →
      reflUpdate dim na side b side o a = b side o' a) ∧
    ∀ f o a, ¬ (f = side ∧ o < 2 ^ dim ∧ Enters side o ∧ a < na) →
      reflUpdate dim na side b f o a = b f o a := by
  obtain ⟨nd, hp⟩ := C30_pairs dim h1 h3 side hs
  have sp := pairs_spec na side side (reflPairs dim side) (Or.inr (by
    rintro ⟨o, o'⟩ hm ⟨r, r'⟩ hr rfl
    have ha := (hp o o').1 hm
    have hb := (hp r o).1 hr
    exact mirror_leaves dim h1 h3 side hs r o hb.1 hb.2.1 hb.2.2 ha.2.1)) nd b
  refine ⟨fun o o' a ho he hm ha => sp.1 (o, o') ((hp o o').2 ⟨ho, he, hm⟩) a ha, fun f o a h => ?_⟩
  refine sp.2 f o a ?_
  rintro ⟨h4, h5, ⟨p, p'⟩, hm, rfl⟩
  have := (hp p p').1 hm
  exact h ⟨h4, this.1, this.2.1, h5⟩

theorem last_spec (L : List (Nat × Nat)) (o : Nat) (r : Option Nat) :
    (∃ p ∈ L, p.1 = o ∧ L.foldl (fun r p => if p.1 = o then some p.2 else r) r = some p.2) ∨
    ((∀ p ∈ L, p.1 ≠ o) ∧ L.foldl (fun r p => if p.1 = o then some p.2 else r) r = r) := by
  induction L generalizing r with
  | nil => right; simp
  | cons q L ih =>
    simp only [List.foldl_cons]
    rcases ih (if q.1 = o then some q.2 else r) with ⟨p, hp, h1, h2⟩ | ⟨h1, h2⟩
    · exact Or.inl ⟨p, by simp [hp], h1, h2⟩
    · by_cases h : q.1 = o
      · left
        exact ⟨q, by simp, h, by rw [h2, if_pos h]⟩
      · right
        refine ⟨?_, by rw [h2, if_neg h]⟩
        intro p hp
        rcases List.mem_cons.1 hp with rfl | hp
        · exact h
        · exact h1 p hp

/-- `update(g, o, a)` on a reflecting side: the one entering flux of that direction becomes the
    flux of its mirror image; for a direction that does not enter there, nothing happens. -/
theorem C30_update_angle (dim : Nat) (h1 : 1 ≤ dim) (h3 : dim ≤ 3) (side : Nat) (hs : side < 2 * dim)
    (b : Bd F) (o a : Nat) :
    (∀ o', o < 2 ^ dim → Enters side o → Mirror dim side o o' →
      reflUpdateAngle dim side b o a side o a = b side o' a) ∧
    ∀ f r c, ¬ (f = side ∧ r = o ∧ c = a ∧ o < 2 ^ dim ∧ Enters side o) →
      reflUpdateAngle dim side b o a f r c = b f r c := by
  obtain ⟨nd, hp⟩ := C30_pairs dim h1 h3 side hs
  have hl : (∃ p ∈ reflPairs dim side, p.1 = o ∧ reflOut dim side o = some p.2) ∨
      ((∀ p ∈ reflPairs dim side, p.1 ≠ o) ∧ reflOut dim side o = none) :=
    last_spec (reflPairs dim side) o none
  rcases hl with ⟨⟨p, p'⟩, hm, rfl, hl⟩ | ⟨hl1, hl⟩
  · have hpp := (hp p p').1 hm
    unfold reflUpdateAngle
    rw [hl]
    refine ⟨fun o' ho he hmi => ?_, fun f r c h => ?_⟩
    · dsimp only
      rw [setB_same]
      have : (p, o') = (p, p') := by
        have hm2 := (hp p o').2 ⟨ho, he, hmi⟩
        exact List.inj_on_of_nodup_map nd hm2 hm rfl
      rw [(Prod.mk.inj this).2]
    · exact setB_other _ _ _ _ _ _ _ _ fun h4 => h ⟨h4.1, h4.2.1, h4.2.2, hpp.1, hpp.2.1⟩
  · unfold reflUpdateAngle
    rw [hl]
    refine ⟨fun o' ho he hmi => ?_, fun f r c _ => rfl⟩
    exact absurd rfl (hl1 (o, o') ((hp o o').2 ⟨ho, he, hmi⟩))

end loops

/-- After `update(g)` the net current through a reflecting side is zero, for any weights and any
    direction cosines (which depend on the angle only). -/
theorem C30_no_current {K : Type} [Field K] (dim : Nat) (h1 : 1 ≤ dim) (h3 : dim ≤ 3) (na side : Nat)
    (hs : side < 2 * dim) (w cs : Nat → K) (b : Bd K) :
    ∑ o ∈ range (2 ^ dim), ∑ a ∈ range na,
      w a * ((octantSign o (side / 2) : K) * cs a) * reflUpdate dim na side b side o a = 0 := by
  rw [sum_comm]
  refine sum_eq_zero fun a ha => ?_
  rw [mem_range] at ha
  have key : ∀ o < 2 ^ dim, ∀ o' < 2 ^ dim, Enters side o → Mirror dim side o o' →
      reflUpdate dim na side b side o a = reflUpdate dim na side b side o' a := by
    intro o ho o' ho' he hm
    have hu := C30_update dim h1 h3 na side hs b
    rw [hu.1 o o' a ho he hm ha, hu.2 side o' a (fun h =>
      mirror_leaves dim h1 h3 side hs o o' ho he hm h.2.2.1)]
  generalize reflUpdate dim na side b side = g at key
  clear ha b
  interval_cases dim <;> interval_cases side <;>
    simp only [Nat.reducePow, Finset.sum_range_succ, Finset.sum_range_zero, Nat.reduceDiv]
  · have k1 := key 0 (by decide) 1 (by decide) (by decide) (by decide)
    simp [octantSign, k1]
  · have k1 := key 1 (by decide) 0 (by decide) (by decide) (by decide)
    simp [octantSign, k1]
  · have k1 := key 0 (by decide) 1 (by decide) (by decide) (by decide)
    have k2 := key 3 (by decide) 2 (by decide) (by decide) (by decide)
    simp [octantSign, k1, k2]
  · have k1 := key 1 (by decide) 0 (by decide) (by decide) (by decide)
    have k2 := key 2 (by decide) 3 (by decide) (by decide) (by decide)
    simp [octantSign, k1, k2]
  · have k1 := key 0 (by decide) 3 (by decide) (by decide) (by decide)
    have k2 := key 1 (by decide) 2 (by decide) (by decide) (by decide)
    simp [octantSign, k1, k2] <;> ring
  · have k1 := key 2 (by decide) 1 (by decide) (by decide) (by decide)
    have k2 := key 3 (by decide) 0 (by decide) (by decide) (by decide)
    simp [octantSign, k1, k2] <;> ring
  · have k1 := key 0 (by decide) 1 (by decide) (by decide) (by decide)
    have k2 := key 3 (by decide) 2 (by decide) (by decide) (by decide)
    have k3 := key 4 (by decide) 5 (by decide) (by decide) (by decide)
    have k4 := key 7 (by decide) 6 (by decide) (by decide) (by decide)
    simp [octantSign, k1, k2, k3, k4]
  · have k1 := key 1 (by decide) 0 (by decide) (by decide) (by decide)
    have k2 := key 2 (by decide) 3 (by decide) (by decide) (by decide)
    have k3 := key 5 (by decide) 4 (by decide) (by decide) (by decide)
    have k4 := key 6 (by decide) 7 (by decide) (by decide) (by decide)
    simp [octantSign, k1, k2, k3, k4]
  · have k1 := key 0 (by decide) 3 (by decide) (by decide) (by decide)
    have k2 := key 1 (by decide) 2 (by decide) (by decide) (by decide)
    have k3 := key 4 (by decide) 7 (by decide) (by decide) (by decide)
    have k4 := key 5 (by decide) 6 (by decide) (by decide) (by decide)
    simp [octantSign, k1, k2, k3, k4] <;> ring
  · have k1 := key 2 (by decide) 1 (by decide) (by decide) (by decide)
    have k2 := key 3 (by decide) 0 (by decide) (by decide) (by decide)
    have k3 := key 6 (by decide) 5 (by decide) (by decide) (by decide)
    have k4 := key 7 (by decide) 4 (by decide) (by decide) (by decide)
    simp [octantSign, k1, k2, k3, k4] <;> ring
  · have k1 := key 0 (by decide) 4 (by decide) (by decide) (by decide)
    have k2 := key 1 (by decide) 5 (by decide) (by decide) (by decide)
    have k3 := key 2 (by decide) 6 (by decide) (by decide) (by decide)
    have k4 := key 3 (by decide) 7 (by decide) (by decide) (by decide)
    simp [octantSign, k1, k2, k3, k4] <;> ring
  · have k1 := key 4 (by decide) 0 (by decide) (by decide) (by decide)
    have k2 := key 5 (by decide) 1 (by decide) (by decide) (by decide)
    have k3 := key 6 (by decide) 2 (by decide) (by decide) (by decide)
    have k4 := key 7 (by decide) 3 (by decide) (by decide) (by decide)
    simp [octantSign, k1, k2, k3, k4] <;> ring

example : reflUpdate 2 1 0 (fun f o a => (10 * f + o + a : ℚ)) 0 3 0 = 2 ∧
    reflUpdate 2 1 0 (fun f o a => (10 * f + o + a : ℚ)) 0 1 0 = 1 := by decide +kernel

/-! ## Periodic: per-angle update -/

section periodic
variable {F : Type}

theorem opposite_ne (side : Nat) : opposite side ≠ side := by
  unfold opposite; split_ifs <;> omega

theorem opp_facts (dim : Nat) (h1 : 1 ≤ dim) (h3 : dim ≤ 3) (side : Nat) (hs : side < 2 * dim) :
    opposite side < 2 * dim ∧ opposite (opposite side) = side ∧ opposite side / 2 = side / 2 ∧
    (∀ o, (∃ p ∈ reflPairs dim side, p.2 = o) ↔ o < 2 ^ dim ∧ Enters (opposite side) o) ∧
    ∀ o, (∃ p ∈ reflPairs dim side, p.1 = o) ↔ o < 2 ^ dim ∧ ¬ Enters (opposite side) o := by
  have k1 : opposite side < 2 * dim ∧ opposite (opposite side) = side ∧
      opposite side / 2 = side / 2 := by
    interval_cases dim <;> interval_cases side <;> decide
  have k2 : (∀ p ∈ reflPairs dim side, p.2 < 2 ^ dim ∧ Enters (opposite side) p.2) ∧
      (∀ p ∈ reflPairs dim side, p.1 < 2 ^ dim ∧ ¬ Enters (opposite side) p.1) := by
    interval_cases dim <;> interval_cases side <;> decide +kernel
  have k3 : ∀ o < 2 ^ dim, (Enters (opposite side) o → ∃ p ∈ reflPairs dim side, p.2 = o) ∧
      (¬ Enters (opposite side) o → ∃ p ∈ reflPairs dim side, p.1 = o) := by
    interval_cases dim <;> interval_cases side <;> decide +kernel
  exact ⟨k1.1, k1.2.1, k1.2.2, fun o => ⟨fun ⟨p, hp, h⟩ => h ▸ k2.1 p hp, fun h => (k3 o h.1).1 h.2⟩,
    fun o => ⟨fun ⟨p, hp, h⟩ => h ▸ k2.2 p hp, fun h => (k3 o h.1).2 h.2⟩⟩

theorem perAngle_fold (L : List (Nat × Nat)) (tgt src o a : Nat) (hne : tgt ≠ src) (b : Bd F)
    (f r c : Nat) :
    L.foldl (fun b p => if p.2 = o then setB b tgt o a (b src o a) else b) b f r c =
      if (f = tgt ∧ r = o ∧ c = a) ∧ (∃ p ∈ L, p.2 = o) then b src o a else b f r c := by
  induction L generalizing b with
  | nil => simp
  | cons q L ih =>
    simp only [List.foldl_cons]
    rw [ih]
    by_cases hq : q.2 = o
    · rw [if_pos hq]
      by_cases hk : f = tgt ∧ r = o ∧ c = a
      · rw [if_pos (show (f = tgt ∧ r = o ∧ c = a) ∧ ∃ p ∈ q :: L, p.2 = o from
          ⟨hk, q, by simp, hq⟩)]
        rw [setB_other _ _ _ _ _ src o a (fun h => hne h.1.symm)]
        obtain ⟨rfl, rfl, rfl⟩ := hk
        rw [setB_same, ite_self]
      · rw [if_neg (fun h => hk h.1), if_neg (fun h => hk h.1), setB_other _ _ _ _ _ _ _ _ hk]
    · rw [if_neg hq]
      have : (∃ p ∈ q :: L, p.2 = o) ↔ ∃ p ∈ L, p.2 = o := by
        constructor
        · rintro ⟨p, hp, h⟩
          rcases List.mem_cons.1 hp with rfl | hp
          · exact absurd h hq
          · exact ⟨p, hp, h⟩
        · rintro ⟨p, hp, h⟩
          exact ⟨p, by simp [hp], h⟩
      simp only [this]

/-- `update(g, o, a)` of a periodic side: if the direction enters through the opposite side, its
    flux there becomes the flux with which the same direction leaves this side; nothing else
    changes. -/
theorem C31_update_angle (dim : Nat) (h1 : 1 ≤ dim) (h3 : dim ≤ 3) (side : Nat) (hs : side < 2 * dim)
    (b : Bd F) (o a : Nat) :
    (o < 2 ^ dim → Enters (opposite side) o →
      perUpdateAngle dim side b o a (opposite side) o a = b side o a) ∧
    ∀ f r c, ¬ (f = opposite side ∧ r = o ∧ c = a ∧ o < 2 ^ dim ∧ Enters (opposite side) o) →
      perUpdateAngle dim side b o a f r c = b f r c := by
  obtain ⟨_, _, _, hx, _⟩ := opp_facts dim h1 h3 side hs
  constructor
  · intro ho he
    unfold perUpdateAngle
    rw [perAngle_fold _ _ _ _ _ (opposite_ne side), if_pos ⟨⟨rfl, rfl, rfl⟩, (hx o).2 ⟨ho, he⟩⟩]
  · intro f r c h
    unfold perUpdateAngle
    rw [perAngle_fold _ _ _ _ _ (opposite_ne side), if_neg]
    rintro ⟨⟨h4, h5, h6⟩, h7⟩
    exact h ⟨h4, h5, h6, (hx o).1 h7⟩

/-- `update(g)` of a periodic side never changes a flux that enters the box through any side; what
    it overwrites are the fluxes that leave through the opposite side. -/
theorem C31_update_group (dim : Nat) (h1 : 1 ≤ dim) (h3 : dim ≤ 3) (na side : Nat)
    (hs : side < 2 * dim) (b : Bd F) :
    (∀ f o a, Enters f o → perUpdate dim na side b f o a = b f o a) ∧
    ∀ o o' a, o < 2 ^ dim → ¬ Enters (opposite side) o → Mirror dim side o o' → a < na →
      perUpdate dim na side b (opposite side) o a = b side o' a := by
  obtain ⟨nd, hp⟩ := C30_pairs dim h1 h3 side hs
  obtain ⟨_, _, _, _, hx⟩ := opp_facts dim h1 h3 side hs
  have sp := pairs_spec na (opposite side) side (reflPairs dim side) (Or.inl (opposite_ne side)) nd b
  refine ⟨fun f o a he => sp.2 f o a ?_, fun o o' a ho he hm ha => ?_⟩
  · rintro ⟨rfl, _, h⟩
    exact ((hx o).1 h).2 he
  · obtain ⟨⟨p, p'⟩, hpm, rfl⟩ := (hx o).2 ⟨ho, he⟩
    have h5 := (hp p p').1 hpm
    exact sp.1 (p, o') ((hp p o').2 ⟨h5.1, h5.2.1, hm⟩) a ha

/-- Witness: on the 1-D slab a right-going flux 1 leaves through the east side, and `update(g)`
    leaves the flux entering through the west side at its old value 0. -/
theorem C31_update_group_witness :
    let b : Bd ℚ := fun f o _ => if f = 1 ∧ o = 0 then 1 else 0
    update 1 1 (fun _ => BC.periodic) b 0 0 0 = 0 ∧ Enters 0 0 ∧ b 1 0 0 = 1 ∧
    updateAngle 1 (fun _ => BC.periodic) b 0 0 0 0 0 = 1 := by decide +kernel

end periodic

/-! ## The whole boundary -/

section whole
variable {F : Type}

/-- A boundary condition as seen from the side it is put on: which side its update writes. -/
def target (bc : BC F) (side : Nat) : Option Nat := match bc with
  | .periodic => some (opposite side)
  | .reflect => some side
  | _ => none

/-- One side's per-angle update writes at most the entering flux of that direction on its target
    side. -/
theorem bcAngle_other (dim : Nat) (h1 : 1 ≤ dim) (h3 : dim ≤ 3) (side : Nat) (hs : side < 2 * dim)
    (bc : BC F) (b : Bd F) (o a f r c : Nat)
    (h : ¬ (target bc side = some f ∧ r = o ∧ c = a ∧ o < 2 ^ dim ∧ Enters f o)) :
    bcUpdateAngle dim side bc b o a f r c = b f r c := by
  cases bc with
  | vacuum => rfl
  | fixed _ => rfl
  | reflect =>
    exact (C30_update_angle dim h1 h3 side hs b o a).2 f r c fun ⟨h4, h5, h6, h7, h8⟩ =>
      h ⟨by rw [h4]; rfl, h5, h6, h7, h4 ▸ h8⟩
  | periodic =>
    exact (C31_update_angle dim h1 h3 side hs b o a).2 f r c fun ⟨h4, h5, h6, h7, h8⟩ =>
      h ⟨by rw [h4]; rfl, h5, h6, h7, h4 ▸ h8⟩

theorem fold_sides_other (L : List Nat) (dim : Nat) (h1 : 1 ≤ dim) (h3 : dim ≤ 3)
    (hL : ∀ s ∈ L, s < 2 * dim) (bc : Nat → BC F) (b : Bd F) (o a f r c : Nat)
    (h : ¬ (r = o ∧ c = a ∧ o < 2 ^ dim ∧ Enters f o ∧ ∃ s ∈ L, target (bc s) s = some f)) :
    L.foldl (fun b side => bcUpdateAngle dim side (bc side) b o a) b f r c = b f r c := by
  induction L generalizing b with
  | nil => rfl
  | cons s L ih =>
    simp only [List.foldl_cons]
    rw [ih (fun s hs => hL s (by simp [hs])) _ (fun ⟨h4, h5, h6, h7, t, ht, h8⟩ =>
      h ⟨h4, h5, h6, h7, t, by simp [ht], h8⟩)]
    exact bcAngle_other dim h1 h3 s (hL s (by simp)) _ _ _ _ _ _ _ fun ⟨h4, h5, h6, h7, h8⟩ =>
      h ⟨h5, h6, h7, h8, s, by simp, h4⟩

theorem enters_entry (dim : Nat) (h1 : 1 ≤ dim) (h3 : dim ≤ 3) (f o : Nat) (hf : f < 2 * dim)
    (ho : o < 2 ^ dim) (he : Enters f o) : f / 2 < dim ∧ f = entry o (f / 2) := by
  have k : ∀ f < 2 * dim, ∀ o < 2 ^ dim, Enters f o → f / 2 < dim ∧ f = entry o (f / 2) := by
    interval_cases dim <;> decide +kernel
  exact k f hf o ho he

theorem target_lt (dim : Nat) (h1 : 1 ≤ dim) (h3 : dim ≤ 3) (side : Nat) (hs : side < 2 * dim)
    (bc : BC F) (f : Nat) (h : target bc side = some f) : f < 2 * dim := by
  cases bc with
  | periodic => exact Option.some.inj h ▸ (opp_facts dim h1 h3 side hs).1
  | reflect => exact Option.some.inj h ▸ hs
  | vacuum => cases h
  | fixed _ => cases h

/-- Whatever boundary condition each side has, the per-angle update rewrites only fluxes that
    enter with the direction about to be swept.  This is the hypothesis under which the sweep
    theorems (C26, C28, C63) hold. -/
theorem C30_update_only_incident (dim : Nat) (h1 : 1 ≤ dim) (h3 : dim ≤ 3) (bc : Nat → BC F) :
    OnlyIncident dim (updateAngle dim bc) := by
  intro b o a f r c h
  refine fold_sides_other _ dim h1 h3 (fun s hs => List.mem_range.1 hs) bc b o a f r c ?_
  rintro ⟨h4, h5, h6, h7, s, hs, h8⟩
  have he := enters_entry dim h1 h3 _ o (target_lt dim h1 h3 s (List.mem_range.1 hs) _ _ h8) h6 h7
  exact h ⟨h4, h5, _, he.1, he.2⟩

theorem fold_sides_hit (dim : Nat) (h1 : 1 ≤ dim) (h3 : dim ≤ 3) (bc : Nat → BC F) (b : Bd F)
    (o a f side : Nat) (ho : o < 2 ^ dim) (he : Enters f o) (hside : side < 2 * dim)
    (hother : ∀ s < 2 * dim, s ≠ side → target (bc s) s ≠ some f) (v : F)
    (hv : ∀ b' : Bd F, (∀ g r, ¬ Enters g r → b' g r a = b g r a) →
      bcUpdateAngle dim side (bc side) b' o a f o a = v) :
    updateAngle dim bc b o a f o a = v := by
  obtain ⟨L1, L2, hL⟩ := List.append_of_mem (List.mem_range.2 hside)
  have nd : (List.range (2 * dim)).Nodup := List.nodup_range
  have hmem : ∀ s, s ∈ L1 ++ side :: L2 → s < 2 * dim := fun s hs => List.mem_range.1 (hL ▸ hs)
  unfold updateAngle
  rw [hL] at nd ⊢
  rw [List.foldl_append, List.foldl_cons]
  rw [fold_sides_other L2 dim h1 h3 (fun s hs => hmem s (by simp [hs])) bc _ o a f o a]
  · refine hv _ fun g r hg => ?_
    rw [fold_sides_other L1 dim h1 h3 (fun s hs => hmem s (by simp [hs])) bc b o a g r a]
    rintro ⟨rfl, _, _, h, _⟩
    exact hg h
  · rintro ⟨_, _, _, _, s, hs, h⟩
    refine hother s (hmem s (by simp [hs])) ?_ h
    rintro rfl
    rw [List.nodup_append] at nd
    exact (List.nodup_cons.1 nd.2.1).1 hs

/-- Whole-boundary per-angle update, reflecting side (its opposite side not periodic): the entering
    flux becomes the mirror image's flux as it was before the call. -/
theorem C30_boundary_angle (dim : Nat) (h1 : 1 ≤ dim) (h3 : dim ≤ 3) (bc : Nat → BC F) (b : Bd F)
    (side o o' a : Nat) (hs : side < 2 * dim) (ho : o < 2 ^ dim) (he : Enters side o)
    (hm : Mirror dim side o o') (hr : bc side = .reflect) (hp : bc (opposite side) ≠ .periodic) :
    updateAngle dim bc b o a side o a = b side o' a := by
  refine fold_sides_hit dim h1 h3 bc b o a side side ho he hs ?_ _ fun b' hb' => ?_
  · intro s hs' hne h
    cases hbc : bc s with
    | periodic =>
      rw [hbc] at h
      have h2 : opposite s = side := Option.some.inj h
      have := (opp_facts dim h1 h3 s hs').2.1
      rw [h2] at this
      exact hp (this ▸ hbc)
    | reflect => rw [hbc] at h; exact hne (Option.some.inj h)
    | vacuum => rw [hbc] at h; cases h
    | fixed _ => rw [hbc] at h; cases h
  · rw [hr]
    exact ((C30_update_angle dim h1 h3 side hs b' o a).1 o' ho he hm).trans
      (hb' side o' (mirror_leaves dim h1 h3 side hs o o' ho he hm))

/-- Whole-boundary per-angle update when a pair of opposite sides is periodic: the flux entering
    through one is the flux that leaves through the other. -/
theorem C31_boundary_angle (dim : Nat) (h1 : 1 ≤ dim) (h3 : dim ≤ 3) (bc : Nat → BC F) (b : Bd F)
    (side o a : Nat) (hs : side < 2 * dim) (ho : o < 2 ^ dim) (he : Enters side o)
    (hr : bc side = .periodic) (hp : bc (opposite side) = .periodic) :
    updateAngle dim bc b o a side o a = b (opposite side) o a := by
  obtain ⟨k1, k2, k3, k4, k5⟩ := opp_facts dim h1 h3 side hs
  have kk := opp_facts dim h1 h3 (opposite side) k1
  refine fold_sides_hit dim h1 h3 bc b o a side (opposite side) ho he k1 ?_ _ fun b' hb' => ?_
  · intro s hs' hne h
    cases hbc : bc s with
    | periodic =>
      rw [hbc] at h
      have h2 : opposite s = side := Option.some.inj h
      have := (opp_facts dim h1 h3 s hs').2.1
      rw [h2] at this
      exact hne this.symm
    | vacuum => rw [hbc] at h; cases h
    | fixed _ => rw [hbc] at h; cases h
    | reflect =>
      rw [hbc] at h
      have h2 : s = side := Option.some.inj h
      rw [h2, hr] at hbc
      cases hbc
  · rw [hp]
    have h6 := (C31_update_angle dim h1 h3 (opposite side) k1 b' o a).1 ho (by rw [k2]; exact he)
    rw [k2] at h6
    refine h6.trans (hb' _ _ ?_)
    have k6 : ∀ side < 2 * dim, ∀ o < 2 ^ dim, Enters side o → ¬ Enters (opposite side) o := by
      interval_cases dim <;> decide +kernel
    exact k6 side hs o ho he

example : updateAngle 2 (fun s => if s < 2 then BC.reflect else BC.periodic)
    (fun f o a => (100 * f + 10 * o + a : ℚ)) 0 1 0 0 1 = 11 ∧
    updateAngle 2 (fun s => if s < 2 then BC.reflect else BC.periodic)
    (fun f o a => (100 * f + 10 * o + a : ℚ)) 0 1 2 0 1 = 301 := by decide +kernel

/-! ## `update(g)` on the whole boundary -/

theorem bcUpdate_other (dim : Nat) (h1 : 1 ≤ dim) (h3 : dim ≤ 3) (na side : Nat)
    (hs : side < 2 * dim) (bc : BC F) (hbc : bc ≠ .periodic) (b : Bd F) (f o a : Nat) (h : f ≠ side) :
    bcUpdate dim na side bc b f o a = b f o a := by
  cases bc with
  | periodic => exact absurd rfl hbc
  | reflect => exact (C30_update dim h1 h3 na side hs b).2 f o a fun h' => h h'.1
  | vacuum => rfl
  | fixed _ => rfl

/-- Without periodic sides, `update(g)` makes every flux entering through a reflecting side the
    flux of the mirror-image direction, and changes nothing else on any side. -/
theorem C30_boundary_update (dim : Nat) (h1 : 1 ≤ dim) (h3 : dim ≤ 3) (na : Nat) (bc : Nat → BC F)
    (hbc : ∀ s < 2 * dim, bc s ≠ .periodic) (b : Bd F) :
    (∀ side o o' a, side < 2 * dim → bc side = .reflect → o < 2 ^ dim → Enters side o →
      Mirror dim side o o' → a < na → update dim na bc b side o a = b side o' a) ∧
    ∀ f o a, ¬ (f < 2 * dim ∧ bc f = .reflect ∧ o < 2 ^ dim ∧ Enters f o ∧ a < na) →
      update dim na bc b f o a = b f o a := by
  have key : ∀ (L : List Nat), L.Nodup → (∀ s ∈ L, s < 2 * dim) → ∀ (b : Bd F),
      (∀ s ∈ L, ∀ o a, L.foldl (fun b side => bcUpdate dim na side (bc side) b) b s o a =
        bcUpdate dim na s (bc s) b s o a) ∧
      (∀ s, s ∉ L → ∀ o a, L.foldl (fun b side => bcUpdate dim na side (bc side) b) b s o a =
        b s o a) := by
    intro L
    induction L with
    | nil => exact fun _ _ b => ⟨fun s hs => absurd hs (by simp), fun _ _ _ _ => rfl⟩
    | cons t L ih =>
      intro hnd hL b
      obtain ⟨hn1, hn2⟩ := List.nodup_cons.1 hnd
      have ht := hL t (by simp)
      have ih' := ih hn2 (fun s hs => hL s (by simp [hs])) (bcUpdate dim na t (bc t) b)
      simp only [List.foldl_cons]
      refine ⟨fun s hs o a => ?_, fun s hs o a => ?_⟩
      · rcases List.mem_cons.1 hs with rfl | hsL
        · exact ih'.2 s hn1 o a
        · rw [ih'.1 s hsL o a]
          have hne : s ≠ t := by rintro rfl; exact hn1 hsL
          have heq : ∀ o a, bcUpdate dim na t (bc t) b s o a = b s o a := fun o a =>
            bcUpdate_other dim h1 h3 na t ht _ (hbc t ht) b s o a hne
          have hss := hL s (by simp [hsL])
          cases hb : bc s with
          | vacuum => exact heq o a
          | fixed _ => exact heq o a
          | periodic => exact absurd hb (hbc s hss)
          | reflect =>
            have u1 := C30_update dim h1 h3 na s hss (bcUpdate dim na t (bc t) b)
            have u2 := C30_update dim h1 h3 na s hss b
            change reflUpdate dim na s _ s o a = reflUpdate dim na s b s o a
            by_cases hc : o < 2 ^ dim ∧ Enters s o ∧ a < na
            · obtain ⟨o', hm, _⟩ := C30_mirror_exists dim h1 h3 s hss o hc.1 hc.2.1
              rw [u1.1 o o' a hc.1 hc.2.1 hm hc.2.2, u2.1 o o' a hc.1 hc.2.1 hm hc.2.2, heq]
            · rw [u1.2 s o a (fun h => hc h.2), u2.2 s o a (fun h => hc h.2), heq]
      · rw [ih'.2 s (fun h => hs (by simp [h])) o a]
        exact bcUpdate_other dim h1 h3 na t ht _ (hbc t ht) b s o a (fun h => hs (by simp [h]))
  have kk := key (List.range (2 * dim)) List.nodup_range (fun s hs => List.mem_range.1 hs) b
  refine ⟨fun side o o' a hs hb ho he hm ha => ?_, fun f o a h => ?_⟩
  · refine (kk.1 side (List.mem_range.2 hs) o a).trans ?_
    rw [hb]
    exact (C30_update dim h1 h3 na side hs b).1 o o' a ho he hm ha
  · by_cases hf : f < 2 * dim
    · refine (kk.1 f (List.mem_range.2 hf) o a).trans ?_
      cases hb : bc f with
      | vacuum => rfl
      | fixed _ => rfl
      | periodic => exact absurd hb (hbc f hf)
      | reflect =>
        exact (C30_update dim h1 h3 na f hf b).2 f o a fun h' =>
          h ⟨hf, hb, h'.2.1, h'.2.2.1, h'.2.2.2⟩
    · exact kk.2 f (fun h' => hf (List.mem_range.1 h')) o a

example : update 1 2 (fun s => if s = 0 then BC.reflect else BC.vacuum)
    (fun f o a => (100 * f + 10 * o + a : ℚ)) 0 0 1 = 11 ∧
    update 1 2 (fun s => if s = 0 then BC.reflect else BC.vacuum)
    (fun f o a => (100 * f + 10 * o + a : ℚ)) 1 1 1 = 111 := by decide +kernel

/-! ## The per-angle update moves values without changing them -/

/-- `g` copies boundary values between places chosen independently of the values. -/
def Moves (g : Bd F → Bd F) : Prop :=
  ∃ σ : Nat → Nat → Nat → Nat × Nat × Nat, ∀ b f o a, g b f o a = b (σ f o a).1 (σ f o a).2.1 (σ f o a).2.2

theorem moves_id : Moves (fun b : Bd F => b) := ⟨fun f o a => (f, o, a), fun _ _ _ _ => rfl⟩

theorem moves_comp {g h : Bd F → Bd F} (hg : Moves g) (hh : Moves h) : Moves (fun b => h (g b)) := by
  obtain ⟨s, hs⟩ := hg
  obtain ⟨t, ht⟩ := hh
  exact ⟨fun f o a => s (t f o a).1 (t f o a).2.1 (t f o a).2.2, fun b f o a => by
    simp only [ht, hs]⟩

theorem moves_setB (f o a f' o' a' : Nat) : Moves (fun b : Bd F => setB b f o a (b f' o' a')) :=
  ⟨fun g r c => if g = f ∧ r = o ∧ c = a then (f', o', a') else (g, r, c), fun b g r c => by
    by_cases h : g = f ∧ r = o ∧ c = a
    · simp only [if_pos h]; obtain ⟨rfl, rfl, rfl⟩ := h; exact setB_same ..
    · simp only [if_neg h]; exact setB_other _ _ _ _ _ _ _ _ h⟩

theorem moves_fold {ι : Type} (L : List ι) (g : Bd F → ι → Bd F) (hg : ∀ i ∈ L, Moves (fun b => g b i)) :
    Moves (fun b => L.foldl g b) := by
  induction L with
  | nil => exact moves_id
  | cons i L ih =>
    exact moves_comp (hg i (by simp)) (ih fun j hj => hg j (by simp [hj]))

theorem moves_updateAngle (dim : Nat) (bc : Nat → BC F) (o a : Nat) :
    Moves (fun b => updateAngle dim bc b o a) := by
  refine moves_fold _ (fun b side => bcUpdateAngle dim side (bc side) b o a) fun side _ => ?_
  cases bc side with
  | vacuum => exact moves_id
  | fixed _ => exact moves_id
  | reflect =>
    change Moves (fun b => reflUpdateAngle dim side b o a)
    unfold reflUpdateAngle
    cases reflOut dim side o with
    | none => exact moves_id
    | some o' => exact moves_setB _ _ _ _ _ _
  | periodic =>
    refine moves_fold _ (fun (b : Bd F) (p : Nat × Nat) =>
      if p.2 = o then setB b (opposite side) o a (b side o a) else b) fun p _ => ?_
    by_cases h : p.2 = o
    · simp only [if_pos h]; exact moves_setB _ _ _ _ _ _
    · simp only [if_neg h]; exact moves_id

/-- Every boundary update used inside a sweep is linear in the boundary flux and keeps nonnegative
    fluxes nonnegative: the hypotheses of the C27 theorems. -/
theorem C27_boundary_linear {K : Type} [Field K] (dim : Nat) (bc1 : Nat → BC K)
    (bc2 : Nat → BC (Nat → K)) (bc3 : Nat → BC (Nat → Nat → K)) :
    LinB1 (updateAngle dim bc1) ∧ LinB2 (updateAngle dim bc2) ∧ LinB3 (updateAngle dim bc3) := by
  refine ⟨?_, ?_, ?_⟩
  · intro α β b1 b2 b3 h o a f o' a'
    obtain ⟨s, hs⟩ := moves_updateAngle dim bc1 o a
    simp only [hs, h]
  · intro α β b1 b2 b3 h o a f o' a' i
    obtain ⟨s, hs⟩ := moves_updateAngle dim bc2 o a
    simp only [hs, h]
  · intro α β b1 b2 b3 h o a f o' a' i j
    obtain ⟨s, hs⟩ := moves_updateAngle dim bc3 o a
    simp only [hs, h]

theorem C27_boundary_nonneg (dim : Nat) (bc : Nat → BC F) (P : F → Prop) (b : Bd F)
    (h : ∀ f o a, P (b f o a)) (o a f o' a' : Nat) : P (updateAngle dim bc b o a f o' a') := by
  obtain ⟨s, hs⟩ := moves_updateAngle dim bc o a
  have := hs b f o' a'
  dsimp only at this
  rw [this]
  exact h _ _ _

end whole

/-! ## C67: fixed boundaries and boundary-condition names -/

section fixed
variable {F : Type}

theorem const_spec (na side i : Nat) (g : Nat → F) (b : Bd F) (f o a : Nat) :
    (List.range na).foldl (fun b a => setB b side i a (g a)) b f o a =
      if f = side ∧ o = i ∧ a < na then g a else b f o a := by
  induction na generalizing f o a with
  | zero => simp
  | succ n ih =>
    rw [List.range_succ, List.foldl_append]
    simp only [List.foldl_cons, List.foldl_nil]
    by_cases h : f = side ∧ o = i ∧ a = n
    · obtain ⟨rfl, rfl, rfl⟩ := h
      rw [setB_same, if_pos ⟨rfl, rfl, by omega⟩]
    · rw [setB_other _ _ _ _ _ _ _ _ h, ih]
      by_cases h2 : f = side ∧ o = i ∧ a < n
      · rw [if_pos h2, if_pos ⟨h2.1, h2.2.1, by omega⟩]
      · rw [if_neg h2, if_neg (by rintro ⟨h3, h4, h5⟩; exact h2 ⟨h3, h4, by
          have : a ≠ n := fun h6 => h ⟨h3, h4, h6⟩
          omega⟩)]

theorem fixed_fold (na side : Nat) (psi : Nat → Nat → F) (L : List (Nat × Nat))
    (hnd : (L.map Prod.fst).Nodup) (b : Bd F) :
    (∀ p ∈ L, ∀ a < na, L.foldl (fun b p =>
      (List.range na).foldl (fun b a => setB b side p.1 a (psi p.2 a)) b) b side p.1 a = psi p.2 a) ∧
    ∀ f o a, ¬ (f = side ∧ a < na ∧ ∃ p ∈ L, p.1 = o) → L.foldl (fun b p =>
      (List.range na).foldl (fun b a => setB b side p.1 a (psi p.2 a)) b) b f o a = b f o a := by
  induction L generalizing b with
  | nil => exact ⟨fun p hp => absurd hp (by simp), fun _ _ _ _ => rfl⟩
  | cons q L ih =>
    rw [List.map_cons, List.nodup_cons] at hnd
    have ih' := ih hnd.2 ((List.range na).foldl (fun b a => setB b side q.1 a (psi q.2 a)) b)
    simp only [List.foldl_cons]
    refine ⟨fun p hp a ha => ?_, fun f o a h => ?_⟩
    · rcases List.mem_cons.1 hp with rfl | hp'
      · rw [ih'.2 _ _ _ (by
          rintro ⟨_, _, r, hr, hr1⟩
          exact hnd.1 (List.mem_map.2 ⟨r, hr, hr1⟩)), const_spec, if_pos ⟨rfl, rfl, ha⟩]
      · exact ih'.1 p hp' a ha
    · rw [ih'.2 f o a (fun ⟨h1, h2, p, hp, h3⟩ => h ⟨h1, h2, p, by simp [hp], h3⟩), const_spec,
        if_neg (fun ⟨h1, h2, h3⟩ => h ⟨h1, h3, q, by simp, h2.symm⟩)]

/-- `set(g)` on one fixed side: the flux of the `io`-th entering octant is the stored one; nothing
    else changes. -/
theorem fixedSet_spec (dim : Nat) (h1 : 1 ≤ dim) (h3 : dim ≤ 3) (na side : Nat) (hs : side < 2 * dim)
    (psi : Nat → Nat → F) (b : Bd F) :
    (∀ (io o a : Nat), (incidentOctants dim side)[io]? = some o → a < na →
      fixedSet dim na side psi b side o a = psi io a) ∧
    ∀ f o a, ¬ (f = side ∧ o < 2 ^ dim ∧ Enters side o ∧ a < na) →
      fixedSet dim na side psi b f o a = b f o a := by
  obtain ⟨nd, _, _, _, hm⟩ := C33_tables dim h1 h3 side hs
  have sp := fixed_fold na side psi (incidentOctants dim side).zipIdx
    (by rw [List.zipIdx_map_fst]; exact nd) b
  refine ⟨fun io o a h ha => ?_, fun f o a h => sp.2 f o a ?_⟩
  · exact sp.1 (o, io) (List.mk_mem_zipIdx_iff_getElem?.2 h) a ha
  · rintro ⟨h4, h5, ⟨p, k⟩, hp, rfl⟩
    have h6 : p ∈ incidentOctants dim side :=
      List.mem_of_getElem? (List.mk_mem_zipIdx_iff_getElem?.1 hp)
    have h7 := ((hm p).1).1 h6
    exact h ⟨h4, h7.1, h7.2, h5⟩

/-- `BoundarySN::set(g)`: on every fixed side each entering octant gets its stored flux, on every
    other place the container is unchanged. -/
theorem C67_set (dim : Nat) (h1 : 1 ≤ dim) (h3 : dim ≤ 3) (na : Nat) (bc : Nat → BC F) (b : Bd F) :
    (∀ side psi, side < 2 * dim → bc side = .fixed psi → ∀ (io o a : Nat),
      (incidentOctants dim side)[io]? = some o → a < na → set dim na bc b side o a = psi io a) ∧
    ∀ f o a, ¬ (f < 2 * dim ∧ (∃ psi, bc f = .fixed psi) ∧ o < 2 ^ dim ∧ Enters f o ∧ a < na) →
      set dim na bc b f o a = b f o a := by
  have other : ∀ s < 2 * dim, ∀ (b : Bd F) (f o a : Nat),
      ¬ (f = s ∧ (∃ psi, bc f = .fixed psi) ∧ o < 2 ^ dim ∧ Enters f o ∧ a < na) →
      bcSet dim na s (bc s) b f o a = b f o a := by
    intro s hs b f o a h
    cases hb : bc s with
    | fixed psi =>
      refine (fixedSet_spec dim h1 h3 na s hs psi b).2 f o a ?_
      rintro ⟨rfl, h4, h5, h6⟩
      exact h ⟨rfl, ⟨psi, hb⟩, h4, h5, h6⟩
    | _ => rfl
  have keep : ∀ (L : List Nat), (∀ s ∈ L, s < 2 * dim) → ∀ (b : Bd F) (f o a : Nat),
      ¬ (f ∈ L ∧ (∃ psi, bc f = .fixed psi) ∧ o < 2 ^ dim ∧ Enters f o ∧ a < na) →
      L.foldl (fun b side => bcSet dim na side (bc side) b) b f o a = b f o a := by
    intro L
    induction L with
    | nil => intros; rfl
    | cons t L ih =>
      intro hL b f o a h
      simp only [List.foldl_cons]
      rw [ih (fun s hs => hL s (by simp [hs])) _ f o a (fun h' => h ⟨by simp [h'.1], h'.2⟩)]
      exact other t (hL t (by simp)) b f o a fun h' => h ⟨by simp [h'.1], h'.2⟩
  refine ⟨fun side psi hs hb io o a hio ha => ?_, fun f o a h => ?_⟩
  · obtain ⟨L1, L2, hL⟩ := List.append_of_mem (List.mem_range.2 hs)
    have nd : (List.range (2 * dim)).Nodup := List.nodup_range
    have hmem : ∀ s, s ∈ L1 ++ side :: L2 → s < 2 * dim := fun s hs => List.mem_range.1 (hL ▸ hs)
    unfold set
    rw [hL] at nd ⊢
    rw [List.foldl_append, List.foldl_cons, keep L2 (fun s hs => hmem s (by simp [hs]))]
    · rw [hb]
      exact (fixedSet_spec dim h1 h3 na side hs psi _).1 io o a hio ha
    · rintro ⟨h4, _⟩
      rw [List.nodup_append] at nd
      exact (List.nodup_cons.1 nd.2.1).1 h4
  · exact keep _ (fun s hs => List.mem_range.1 hs) b f o a fun h' => h ⟨List.mem_range.1 h'.1, h'.2⟩

/-- Every entering octant of a side has a stored flux, so `set` covers all of them. -/
theorem C67_set_covers (dim : Nat) (h1 : 1 ≤ dim) (h3 : dim ≤ 3) (side : Nat) (hs : side < 2 * dim)
    (o : Nat) (ho : o < 2 ^ dim) (he : Enters side o) :
    ∃ io : Nat, io < 2 ^ (dim - 1) ∧ (incidentOctants dim side)[io]? = some o := by
  obtain ⟨_, _, hl, _, hm⟩ := C33_tables dim h1 h3 side hs
  obtain ⟨io, h, he⟩ := List.getElem_of_mem (((hm o).1).2 ⟨ho, he⟩)
  exact ⟨io, hl ▸ h, by rw [← he]; exact List.getElem?_eq_getElem h⟩

/-- A fixed flux survives every later per-angle update, unless the opposite side is periodic. -/
theorem C67_fixed_kept (dim : Nat) (h1 : 1 ≤ dim) (h3 : dim ≤ 3) (bc : Nat → BC F) (b : Bd F)
    (side : Nat) (hs : side < 2 * dim) (psi : Nat → Nat → F) (hb : bc side = .fixed psi)
    (hp : bc (opposite side) ≠ .periodic) (o a r c : Nat) :
    updateAngle dim bc b o a side r c = b side r c := by
  refine fold_sides_other _ dim h1 h3 (fun s hs => List.mem_range.1 hs) bc b o a side r c ?_
  rintro ⟨_, _, _, _, s, hs', h⟩
  cases hbs : bc s with
  | periodic =>
    rw [hbs] at h
    have h2 : opposite s = side := Option.some.inj h
    have := (opp_facts dim h1 h3 s (List.mem_range.1 hs')).2.1
    rw [h2] at this
    exact hp (this ▸ hbs)
  | reflect =>
    rw [hbs] at h
    have h2 : s = side := Option.some.inj h
    rw [h2, hb] at hbs
    cases hbs
  | vacuum => rw [hbs] at h; cases h
  | fixed _ => rw [hbs] at h; cases h

/-- The names accepted for a side, and what each builds; no entry means vacuum. -/
theorem C67_names (z : F) (name : Option String) :
    (bcOf z name = none ↔ name ≠ none ∧ name ≠ some "vacuum" ∧ name ≠ some "reflect" ∧
      name ≠ some "fixed" ∧ name ≠ some "periodic") ∧
    (bcOf z name = some .reflect ↔ name = some "reflect") ∧
    (isReflective name = true ↔ name = some "reflect") ∧ bcOf z none = some .vacuum := by
  cases name with
  | none => exact ⟨by simp [bcOf], by simp [bcOf], by simp [isReflective], rfl⟩
  | some n =>
    refine ⟨?_, ?_, by simp [isReflective], rfl⟩
    · simp only [bcOf, Option.getD_some]
      split <;> simp_all
    · simp only [bcOf, Option.getD_some]
      split <;> simp_all

example : set 2 1 (fun s => if s = 1 then BC.fixed fun io _ => (io + 5 : ℚ) else BC.vacuum)
    (fun _ _ _ => 0) 1 2 0 = 6 := by decide +kernel

end fixed

/-! ## C32: flattened boundary fluxes -/

section flat

/-- Specification: cells of a face along the `k`-th of its own axes (highest axis first), one where
    there is no such axis. -/
def faceCells (dim side : Nat) (n : Nat → Nat) (k : Nat) : Nat :=
  ((((List.range dim).filter (· ≠ side / 2)).reverse).map n).getD k 1

theorem faceSize_eq (dim side : Nat) (h1 : 1 ≤ dim) (h3 : dim ≤ 3) (hs : side < 2 * dim)
    (n : Nat → Nat) : faceSize dim side n = (faceCells dim side n 0, faceCells dim side n 1) := by
  interval_cases dim <;> interval_cases side <;> rfl

/-- The allocated size of a side: every octant and angle, times the cells of the face. -/
theorem C32_flux_size (dim side nao : Nat) (h1 : 1 ≤ dim) (h3 : dim ≤ 3) (hs : side < 2 * dim)
    (n : Nat → Nat) : fluxSize dim nao side n =
      2 ^ dim * nao * (((List.range dim).filter (· ≠ side / 2)).map n).prod := by
  interval_cases dim <;> interval_cases side <;>
    simp [fluxSize, faceSize, List.range, List.range.loop, List.filter] <;> ring

/-- Which places a call of `psi` visits: the selected sides, the entering (leaving) octants, every
    angle and face cell. -/
def Selected (dim nao : Nat) (n : Nat → Nat) (out onlyref : Bool) (refl : Nat → Bool) (l : Loc) :
    Prop :=
  l.side < 2 * dim ∧ (onlyref = true → refl l.side = true) ∧ l.octant < 2 ^ dim ∧
  (Enters l.side l.octant ↔ out = false) ∧ l.angle < nao ∧
  l.i < faceCells dim l.side n 0 ∧ l.j < faceCells dim l.side n 1

theorem C32_places (dim : Nat) (h1 : 1 ≤ dim) (h3 : dim ≤ 3) (nao : Nat) (n : Nat → Nat)
    (out onlyref : Bool) (refl : Nat → Bool) (l : Loc) :
    l ∈ locs dim nao n out onlyref refl ↔ Selected dim nao n out onlyref refl l := by
  obtain ⟨side, o, a, i, j⟩ := l
  unfold locs Selected
  simp only [List.mem_flatMap, List.mem_range]
  have hoct : ∀ s < 2 * dim, (o ∈ (if out = true then outgoingOctants dim s else incidentOctants dim s)
      ↔ o < 2 ^ dim ∧ (Enters s o ↔ out = false)) := by
    intro s hs
    have := (C33_tables dim h1 h3 s hs).2.2.2.2 o
    cases out
    · rw [if_neg (by decide)]
      exact this.1.trans (by rw [sgn_init]; simp)
    · rw [if_pos rfl]
      exact this.2.trans (by rw [sgn_init]; simp)
  constructor
  · rintro ⟨s, hs, h⟩
    by_cases hc : (!onlyref || (onlyref && refl s)) = true
    · rw [if_pos hc] at h
      simp only [List.mem_flatMap, List.mem_range, List.mem_map] at h
      obtain ⟨o2, ho2, a2, ha2, i2, hi2, j2, hj2, he⟩ := h
      simp only [Loc.mk.injEq] at he
      obtain ⟨rfl, rfl, rfl, rfl, rfl⟩ := he
      have := (hoct s hs).1 ho2
      rw [faceSize_eq dim s h1 h3 hs n] at hi2 hj2
      refine ⟨hs, ?_, this.1, this.2, ha2, hi2, hj2⟩
      intro h; rw [h] at hc; simpa using hc
    · rw [if_neg hc] at h
      simp at h
  · rintro ⟨hs, hr, ho, he, ha, hi, hj⟩
    refine ⟨side, hs, ?_⟩
    rw [if_pos (by cases onlyref <;> simp_all)]
    simp only [List.mem_flatMap, List.mem_range, List.mem_map, faceSize_eq dim side h1 h3 hs n]
    exact ⟨o, (hoct side hs).2 ⟨ho, he⟩, a, ha, i, hi, j, hj, rfl⟩

theorem nodup_flatMap_key {α β κ : Type} (L : List α) (f : α → List β) (k : β → κ) (g : α → κ)
    (hL : L.Nodup) (hg : ∀ x ∈ L, ∀ y ∈ L, g x = g y → x = y) (hk : ∀ x ∈ L, ∀ b ∈ f x, k b = g x)
    (hf : ∀ x ∈ L, (f x).Nodup) : (L.flatMap f).Nodup := by
  induction L with
  | nil => simp
  | cons x L ih =>
    rw [List.flatMap_cons, List.nodup_append]
    obtain ⟨hn1, hn2⟩ := List.nodup_cons.1 hL
    refine ⟨hf x (by simp), ih hn2 (fun y hy z hz => hg y (by simp [hy]) z (by simp [hz]))
      (fun y hy => hk y (by simp [hy])) (fun y hy => hf y (by simp [hy])), ?_⟩
    rintro b hb c hc rfl
    obtain ⟨y, hy, hb2⟩ := List.mem_flatMap.1 hc
    have h4 := hk x (by simp) b hb
    have h5 := hk y (by simp [hy]) b hb2
    have := hg x (by simp) y (by simp [hy]) (h4.symm.trans h5)
    exact hn1 (this ▸ hy)

/-- No place is visited twice. -/
theorem C32_nodup (dim : Nat) (h1 : 1 ≤ dim) (h3 : dim ≤ 3) (nao : Nat) (n : Nat → Nat)
    (out onlyref : Bool) (refl : Nat → Bool) : (locs dim nao n out onlyref refl).Nodup := by
  unfold locs
  refine nodup_flatMap_key _ _ (fun l => l.side) id List.nodup_range (fun _ _ _ _ h => h) ?_ ?_
  · intro s _ b hb
    by_cases hc : (!onlyref || (onlyref && refl s)) = true
    · rw [if_pos hc] at hb
      simp only [List.mem_flatMap, List.mem_map] at hb
      obtain ⟨_, _, _, _, _, _, _, _, rfl⟩ := hb
      rfl
    · rw [if_neg hc] at hb
      simp at hb
  · intro s hs
    have hs := List.mem_range.1 hs
    by_cases hc : (!onlyref || (onlyref && refl s)) = true
    · rw [if_pos hc]
      have ht := C33_tables dim h1 h3 s hs
      refine nodup_flatMap_key _ _ (fun l => l.octant) id ?_ (fun _ _ _ _ h => h) ?_ ?_
      · split
        · exact ht.2.1
        · exact ht.1
      · intro o _ b hb
        simp only [List.mem_flatMap, List.mem_map] at hb
        obtain ⟨_, _, _, _, _, _, rfl⟩ := hb
        rfl
      · intro o _
        refine nodup_flatMap_key _ _ (fun l => l.angle) id List.nodup_range (fun _ _ _ _ h => h) ?_ ?_
        · intro a _ b hb
          simp only [List.mem_flatMap, List.mem_map] at hb
          obtain ⟨_, _, _, _, rfl⟩ := hb
          rfl
        · intro a _
          refine nodup_flatMap_key _ _ (fun l => l.i) id List.nodup_range (fun _ _ _ _ h => h) ?_ ?_
          · intro i _ b hb
            simp only [List.mem_map] at hb
            obtain ⟨_, _, rfl⟩ := hb
            rfl
          · intro i _
            exact List.nodup_range.map fun x y h => (Loc.mk.inj h).2.2.2.2
    · rw [if_neg hc]; simp

theorem length_flatMap_const {α β : Type} (L : List α) (f : α → List β) (c : Nat)
    (h : ∀ x ∈ L, (f x).length = c) : (L.flatMap f).length = L.length * c := by
  induction L with
  | nil => simp
  | cons x L ih =>
    rw [List.flatMap_cons, List.length_append, h x (by simp), ih fun y hy => h y (by simp [hy]),
      List.length_cons]
    ring

/-- The number of values is half of every selected side's boundary flux size; this is the length
    with which the Krylov solvers allocate. -/
theorem C32_length (dim : Nat) (h1 : 1 ≤ dim) (h3 : dim ≤ 3) (nao : Nat) (n : Nat → Nat)
    (out onlyref : Bool) (refl : Nat → Bool) :
    (locs dim nao n out onlyref refl).length = ∑ side ∈ range (2 * dim),
      if onlyref = true → refl side = true then fluxSize dim nao side n / 2 else 0 := by
  have gen : ∀ (m : Nat) (f : Nat → List Loc),
      ((List.range m).flatMap f).length = ∑ s ∈ range m, (f s).length := by
    intro m f
    induction m with
    | zero => simp
    | succ m ih =>
      rw [List.range_succ, List.flatMap_append, List.length_append, ih, Finset.sum_range_succ]
      simp
  unfold locs
  rw [gen]
  refine Finset.sum_congr rfl fun s hs => ?_
  have hs := mem_range.1 hs
  by_cases hc : onlyref = true → refl s = true
  · rw [if_pos hc, if_pos (by cases onlyref <;> simp_all)]
    have ht := C33_tables dim h1 h3 s hs
    rw [length_flatMap_const _ _ (nao * ((faceSize dim s n).1 * (faceSize dim s n).2))]
    · have : (if out = true then outgoingOctants dim s else incidentOctants dim s).length =
          2 ^ (dim - 1) := by
        split
        · exact ht.2.2.2.1
        · exact ht.2.2.1
      rw [this]
      unfold fluxSize
      have : 2 ^ dim = 2 * 2 ^ (dim - 1) := by
        obtain ⟨k, rfl⟩ : ∃ k, dim = k + 1 := ⟨dim - 1, by omega⟩
        rw [Nat.add_sub_cancel, Nat.pow_succ, Nat.mul_comm]
      rw [this]
      generalize 2 ^ (dim - 1) = e
      rw [show 2 * e * nao * (faceSize dim s n).1 * (faceSize dim s n).2 =
        e * (nao * ((faceSize dim s n).1 * (faceSize dim s n).2)) * 2 by ring]
      rw [Nat.mul_div_cancel _ (by norm_num)]
    · intro o _
      rw [length_flatMap_const _ _ ((faceSize dim s n).1 * (faceSize dim s n).2), List.length_range]
      intro a _
      rw [length_flatMap_const _ _ ((faceSize dim s n).2), List.length_range]
      intro i _
      simp
  · rw [if_neg hc, if_neg (by cases onlyref <;> simp_all)]
    rfl

variable {K : Type}

theorem setPsi_other (L : List Loc) (v : List K) (b : Loc → K) (l : Loc) (h : l ∉ L) :
    setPsi L v b l = b l := by
  induction L generalizing v b with
  | nil => rfl
  | cons x L ih =>
    cases v with
    | nil => rfl
    | cons y v =>
      simp only [setPsi]
      rw [ih _ _ (fun h' => h (by simp [h'])), if_neg (fun h' => h (by simp [h']))]

theorem get_set (L : List Loc) (hL : L.Nodup) (v : List K) (hv : v.length = L.length) (b : Loc → K) :
    getPsi L (setPsi L v b) = v := by
  induction L generalizing v b with
  | nil => cases v with
    | nil => rfl
    | cons _ _ => simp at hv
  | cons x L ih =>
    cases v with
    | nil => simp at hv
    | cons y v =>
      obtain ⟨hn1, hn2⟩ := List.nodup_cons.1 hL
      have := ih hn2 v (by simpa using hv) (fun l' => if l' = x then y else b l')
      simp only [getPsi, setPsi, List.map_cons] at this ⊢
      rw [this, setPsi_other _ _ _ _ hn1, if_pos rfl]

/-- Writing a vector and reading back with the same arguments returns the vector; places not
    selected keep their values. -/
theorem C32_set_get (dim : Nat) (h1 : 1 ≤ dim) (h3 : dim ≤ 3) (nao : Nat) (n : Nat → Nat)
    (out onlyref : Bool) (refl : Nat → Bool) (v : List K)
    (hv : v.length = (locs dim nao n out onlyref refl).length) (b : Loc → K) :
    getPsi (locs dim nao n out onlyref refl) (setPsi (locs dim nao n out onlyref refl) v b) = v ∧
    ∀ l, ¬ Selected dim nao n out onlyref refl l →
      setPsi (locs dim nao n out onlyref refl) v b l = b l :=
  ⟨get_set _ (C32_nodup dim h1 h3 nao n out onlyref refl) v hv b, fun l hl =>
    setPsi_other _ _ _ _ fun h => hl ((C32_places dim h1 h3 nao n out onlyref refl l).1 h)⟩

/-- Reading a vector and writing it into any container that agrees on the unselected places gives
    back the container that was read. -/
theorem C32_get_set (dim : Nat) (h1 : 1 ≤ dim) (h3 : dim ≤ 3) (nao : Nat) (n : Nat → Nat)
    (out onlyref : Bool) (refl : Nat → Bool) (b b' : Loc → K)
    (hb : ∀ l, ¬ Selected dim nao n out onlyref refl l → b' l = b l) :
    setPsi (locs dim nao n out onlyref refl) (getPsi (locs dim nao n out onlyref refl) b) b' = b := by
  have key : ∀ (L : List Loc), L.Nodup → ∀ b' : Loc → K, (∀ l, l ∉ L → b' l = b l) →
      setPsi L (getPsi L b) b' = b := by
    intro L
    induction L with
    | nil => exact fun _ b' h => funext fun l => h l (by simp)
    | cons x L ih =>
      intro hnd b' h
      obtain ⟨hn1, hn2⟩ := List.nodup_cons.1 hnd
      simp only [getPsi, List.map_cons, setPsi]
      refine ih hn2 _ fun l hl => ?_
      by_cases hx : l = x
      · rw [if_pos hx, hx]
      · rw [if_neg hx]
        exact h l (by simp [hx, hl])
  exact key _ (C32_nodup dim h1 h3 nao n out onlyref refl) b' fun l hl =>
    hb l fun h => hl ((C32_places dim h1 h3 nao n out onlyref refl l).2 h)

/-- Setting entering fluxes leaves every leaving flux alone and conversely. -/
theorem C32_in_out_disjoint (dim nao : Nat) (n : Nat → Nat) (r1 r2 : Bool) (refl1 refl2 : Nat → Bool)
    (l : Loc) (h : Selected dim nao n false r1 refl1 l) : ¬ Selected dim nao n true r2 refl2 l := by
  intro h2
  exact absurd (h2.2.2.2.1.1 (h.2.2.2.1.2 rfl)) (by decide)

/-- Clearing zeroes every place that either direction of `psi` can reach. -/
theorem C32_clear [Zero K] (dim nao : Nat) (h1 : 1 ≤ dim) (h3 : dim ≤ 3) (n : Nat → Nat)
    (out onlyref : Bool) (refl : Nat → Bool)
    (b : Loc → K) (l : Loc) (h : Selected dim nao n out onlyref refl l) : clear dim nao n b l = 0 :=
  if_pos ⟨h.1, h.2.2.1, h.2.2.2.2.1, by
    rw [faceSize_eq dim l.side h1 h3 h.1 n]; exact h.2.2.2.2.2.1, by
    rw [faceSize_eq dim l.side h1 h3 h.1 n]; exact h.2.2.2.2.2.2⟩

example : (locs 2 1 (fun d => d + 2) false true (fun s => s == 1)).length = 6 ∧
    fluxSize 2 1 1 (fun d => d + 2) = 12 ∧
    (⟨1, 2, 0, 2, 0⟩ : Loc) ∈ locs 2 1 (fun d => d + 2) false true (fun s => s == 1) := by decide +kernel

end flat

end Detran.Boundary
