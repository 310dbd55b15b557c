import Verif.Model.WGReflect
import Verif.Props.Boundary

/-!
# Facts about sweeps with a boundary, used for the within-group solves (C124)
-/

namespace Detran.WGReflect

open Detran.Sweep (St sweepWith sweepWith_eq pairs mem_pairs pairs_nodup setB_other setB_same)
open Detran.Boundary (Bd BC Loc Enters Mirror faceCells Selected)
open Finset

variable {F K : Type} [Field K]

/-- A cell of the face on `side`. -/
def InFace (P : Prob F K) (side i j : Nat) : Prop :=
  i < faceCells P.dim side P.n 0 ∧ j < faceCells P.dim side P.n 1

/-- What the proofs use of a directional sweep: `Sol q o a b p` says that with cell sources `q` the faces `b`
    (by side) and the angular flux `p` satisfy the cell equations of direction `(o, a)`. -/
structure Sweeps (P : Prob F K) (w : Nat → K)
    (Sol : (Nat → K) → Nat → Nat → (Nat → F) → (Nat → K) → Prop) : Prop where
  d1 : 1 ≤ P.dim
  d3 : P.dim ≤ 3
  order : P.order.Perm (List.range (2 ^ P.dim))
  face : ∀ side < 2 * P.dim, ∀ f i j, InFace P side i j → P.get (P.face f) i j = f i j
  other : ∀ upd src s (p q : Nat × Nat), q ≠ p → ∀ f,
    (P.step upd src s p.1 p.2).bdy f q.1 q.2 = s.bdy f q.1 q.2
  inc : ∀ upd src s, ∀ o < 2 ^ P.dim, ∀ a, ∀ f < 2 * P.dim, Enters f o →
    (P.step upd src s o a).bdy f o a = bupOf P.dim P.bc upd s.bdy o a f o a
  solves : ∀ upd src s, ∃ psi : Nat → Nat → Nat → K,
    (∀ o < 2 ^ P.dim, ∀ a < P.na, Sol (src o a) o a (fun f => (P.sweep upd src s).bdy f o a) (psi o a)) ∧
    ∀ c < P.N, (P.sweep upd src s).phi c = ∑ o ∈ range (2 ^ P.dim), ∑ a ∈ range P.na, w a * psi o a c
  lin : ∀ (α β : K) q1 q2 q3 o a b1 b2 b3 p1 p2 p3, o < 2 ^ P.dim → Sol q1 o a b1 p1 → Sol q2 o a b2 p2 →
    (∀ c < P.N, q3 c = α * q1 c + β * q2 c) → (∀ c, p3 c = α * p1 c + β * p2 c) →
    (∀ side < 2 * P.dim, ∀ i j, InFace P side i j →
      P.get (b3 side) i j = α * P.get (b1 side) i j + β * P.get (b2 side) i j) → Sol q3 o a b3 p3
  det : ∀ q o a b p b' p', o < 2 ^ P.dim → Sol q o a b p → Sol q o a b' p' →
    (∀ side < 2 * P.dim, Enters side o → ∀ i j, InFace P side i j → P.get (b side) i j = P.get (b' side) i j) →
    (∀ side < 2 * P.dim, ¬ Enters side o → ∀ i j, InFace P side i j →
      P.get (b side) i j = P.get (b' side) i j) ∧ ∀ c < P.N, p c = p' c

variable {P : Prob F K} {w : Nat → K} {Sol : (Nat → K) → Nat → Nat → (Nat → F) → (Nat → K) → Prop}

/-- The fluxes of one direction are written once, from a boundary in which every other direction is either
    still as before the sweep or already as after it; which of the two (`late`) depends on the order of the
    directions only. -/
theorem sweep_late (h : Sweeps P w Sol) (o a : Nat) (ho : o < 2 ^ P.dim) (ha : a < P.na) :
    ∃ late : Nat → Prop, ∀ (upd : Bool) (src) (s : St F K),
    ∃ m : St F K, (∀ f, (P.sweep upd src s).bdy f o a = (P.step upd src m o a).bdy f o a) ∧
      (∀ f, m.bdy f o a = s.bdy f o a) ∧
      ∀ o' < 2 ^ P.dim, o' ≠ o → (late o' → ∀ f, m.bdy f o' a = s.bdy f o' a) ∧
        (¬ late o' → ∀ f, m.bdy f o' a = (P.sweep upd src s).bdy f o' a) := by
  have hnd : (pairs P.order P.na).Nodup := pairs_nodup (h.order.nodup_iff.2 List.nodup_range) P.na
  have hmem : ∀ o' < 2 ^ P.dim, (o', a) ∈ pairs P.order P.na := fun o' ho' =>
    mem_pairs.2 ⟨h.order.mem_iff.2 (List.mem_range.2 ho'), ha⟩
  obtain ⟨L1, L2, hL⟩ := List.append_of_mem (hmem o ho)
  refine ⟨fun o' => (o', a) ∉ L1, fun upd src s => ?_⟩
  have keep : ∀ (L : List (Nat × Nat)) (s : St F K) (q : Nat × Nat), q ∉ L → ∀ f,
      (L.foldl (fun s p => P.step upd src s p.1 p.2) s).bdy f q.1 q.2 = s.bdy f q.1 q.2 := by
    intro L
    induction L with
    | nil => intros; rfl
    | cons p L ih =>
      intro s q hq f
      rw [List.foldl_cons, ih _ q (fun h' => hq (by simp [h'])) f]
      exact h.other upd src s p q (fun e => hq (by simp [e])) f
  have es : P.sweep upd src s = (pairs P.order P.na).foldl (fun s p => P.step upd src s p.1 p.2)
      { s with phi := fun _ => 0 } := sweepWith_eq _ _ _ _
  rw [hL] at hnd es
  rw [List.foldl_append, List.foldl_cons] at es
  have hn := List.nodup_append.1 hnd
  have hn2 := List.nodup_cons.1 hn.2.1
  refine ⟨L1.foldl (fun s p => P.step upd src s p.1 p.2) { s with phi := fun _ => 0 }, ?_, ?_, ?_⟩
  · intro f
    rw [es]
    exact keep L2 _ (o, a) hn2.1 f
  · intro f
    exact keep L1 { s with phi := fun _ => 0 } (o, a) (fun h' => hn.2.2 _ h' (o, a) (by simp) rfl) f
  · intro o' ho' hne
    constructor
    · intro h1 f
      exact keep L1 { s with phi := fun _ => 0 } (o', a) h1 f
    · intro h1 f
      have h1 : (o', a) ∈ L1 := not_not.1 h1
      rw [es]
      have h2 : (o', a) ∉ L2 := fun h' => hn.2.2 _ h1 (o', a) (by simp [h']) rfl
      rw [keep L2 _ (o', a) h2 f]
      exact (h.other upd src _ (o, a) (o', a) (fun e => hne (Prod.mk.inj e).1) f).symm

/-- So for one sweep: every other direction is as before or as after it. -/
theorem sweep_turn (h : Sweeps P w Sol) (upd : Bool) (src) (s : St F K) (o a : Nat) (ho : o < 2 ^ P.dim)
    (ha : a < P.na) :
    ∃ m : St F K, (∀ f, (P.sweep upd src s).bdy f o a = (P.step upd src m o a).bdy f o a) ∧
      (∀ f, m.bdy f o a = s.bdy f o a) ∧
      ∀ o' < 2 ^ P.dim, o' ≠ o → (∀ f, m.bdy f o' a = s.bdy f o' a) ∨
        ∀ f, m.bdy f o' a = (P.sweep upd src s).bdy f o' a := by
  obtain ⟨late, k⟩ := sweep_late h o a ho ha
  obtain ⟨m, h1, h2, h3⟩ := k upd src s
  refine ⟨m, h1, h2, fun o' ho' hne => ?_⟩
  by_cases hl : late o'
  · exact .inl ((h3 o' ho' hne).1 hl)
  · exact .inr ((h3 o' ho' hne).2 hl)

/-- Without boundary updates a sweep leaves every entering flux alone. -/
theorem sweep_off (h : Sweeps P w Sol) (src) (s : St F K) (o a : Nat) (ho : o < 2 ^ P.dim)
    (ha : a < P.na) (f : Nat) (hf : f < 2 * P.dim) (he : Enters f o) :
    (P.sweep false src s).bdy f o a = s.bdy f o a := by
  obtain ⟨m, h1, h2, _⟩ := sweep_turn h false src s o a ho ha
  rw [h1, h.inc false src m o ho a f hf he]
  exact h2 f

/-- With updates, entering fluxes of sides that do not reflect stay (no periodic side). -/
theorem sweep_keep (h : Sweeps P w Sol) (hp : ∀ s < 2 * P.dim, P.bc s ≠ .periodic) (upd : Bool) (src) (s : St F K)
    (o a : Nat) (ho : o < 2 ^ P.dim) (ha : a < P.na) (f : Nat) (hf : f < 2 * P.dim) (he : Enters f o)
    (hr : P.bc f ≠ .reflect) : (P.sweep upd src s).bdy f o a = s.bdy f o a := by
  cases upd with
  | false => exact sweep_off h src s o a ho ha f hf he
  | true =>
    obtain ⟨m, h1, h2, _⟩ := sweep_turn h true src s o a ho ha
    rw [h1, h.inc true src m o ho a f hf he, ← h2]
    change Boundary.updateAngle P.dim P.bc m.bdy o a f o a = _
    refine Boundary.fold_sides_other _ P.dim h.d1 h.d3 (fun s hs => List.mem_range.1 hs) P.bc m.bdy o a f o a ?_
    rintro ⟨_, _, _, _, t, ht, h8⟩
    have ht := List.mem_range.1 ht
    cases hb : P.bc t with
    | periodic => exact hp t ht hb
    | reflect =>
      rw [hb] at h8
      have h9 : t = f := Option.some.inj h8
      exact hr (h9 ▸ hb)
    | vacuum => rw [hb] at h8; cases h8
    | fixed _ => rw [hb] at h8; cases h8

/-- With updates, the flux entering through a reflecting side is the flux its mirror direction had there either
    before or after the sweep. -/
theorem sweep_reflect (h : Sweeps P w Sol) (hp : ∀ s < 2 * P.dim, P.bc s ≠ .periodic) (src) (s : St F K)
    (o o' a : Nat) (ho : o < 2 ^ P.dim) (ha : a < P.na) (f : Nat) (hf : f < 2 * P.dim) (he : Enters f o)
    (hr : P.bc f = .reflect) (hm : Mirror P.dim f o o') :
    (P.sweep true src s).bdy f o a = s.bdy f o' a ∨
    (P.sweep true src s).bdy f o a = (P.sweep true src s).bdy f o' a := by
  obtain ⟨m, h1, _, h3⟩ := sweep_turn h true src s o a ho ha
  have hne : o' ≠ o := fun e => Boundary.mirror_leaves P.dim h.d1 h.d3 f hf o o' ho he hm (e ▸ he)
  have hu : (P.sweep true src s).bdy f o a = m.bdy f o' a := by
    rw [h1, h.inc true src m o ho a f hf he]
    refine Boundary.C30_boundary_angle P.dim h.d1 h.d3 P.bc m.bdy f o o' a hf ho he hm hr ?_
    exact hp _ (Boundary.opp_facts P.dim h.d1 h.d3 f hf).1
  rcases h3 o' hm.1 hne with h4 | h4
  · left; rw [hu, h4]
  · right; rw [hu, h4]

/-- Which of the two it is depends on the directions only. -/
theorem sweep_reflect_late (h : Sweeps P w Sol) (hp : ∀ s < 2 * P.dim, P.bc s ≠ .periodic) :
    ∃ late : Nat → Nat → Nat → Prop, ∀ (src) (s : St F K) (o o' a : Nat), o < 2 ^ P.dim → a < P.na →
    ∀ f < 2 * P.dim, Enters f o → P.bc f = .reflect → Mirror P.dim f o o' →
    (late o a o' → (P.sweep true src s).bdy f o a = s.bdy f o' a) ∧
    (¬ late o a o' → (P.sweep true src s).bdy f o a = (P.sweep true src s).bdy f o' a) := by
  refine ⟨fun o a => if k : o < 2 ^ P.dim ∧ a < P.na then Classical.choose (sweep_late h o a k.1 k.2)
    else fun _ => False, fun src s o o' a ho ha f hf he hr hm => ?_⟩
  simp only [dif_pos (⟨ho, ha⟩ : o < 2 ^ P.dim ∧ a < P.na)]
  obtain ⟨m, h1, _, h3⟩ := Classical.choose_spec (sweep_late h o a ho ha) true src s
  have hne : o' ≠ o := fun e => Boundary.mirror_leaves P.dim h.d1 h.d3 f hf o o' ho he hm (e ▸ he)
  have hu : (P.sweep true src s).bdy f o a = m.bdy f o' a := by
    rw [h1, h.inc true src m o ho a f hf he]
    refine Boundary.C30_boundary_angle P.dim h.d1 h.d3 P.bc m.bdy f o o' a hf ho he hm hr ?_
    exact hp _ (Boundary.opp_facts P.dim h.d1 h.d3 f hf).1
  obtain ⟨k1, k2⟩ := h3 o' hm.1 hne
  exact ⟨fun hl => by rw [hu, k1 hl], fun hl => by rw [hu, k2 hl]⟩

/-! ## Entries of the container -/

theorem get_unflat (h : Sweeps P w Sol) (g : Loc → K) (side o a i j : Nat) (hs : side < 2 * P.dim)
    (hi : InFace P side i j) : P.get (P.unflat g side o a) i j = g ⟨side, o, a, i, j⟩ :=
  h.face side hs _ i j hi

theorem refl_iff (side : Nat) : P.refl side = true ↔ P.bc side = .reflect := by
  unfold Prob.refl
  cases P.bc side <;> simp

theorem hasRefl_iff : P.hasRefl = true ↔ ∃ side < 2 * P.dim, P.bc side = .reflect := by
  unfold Prob.hasRefl
  rw [List.any_eq_true]
  constructor
  · rintro ⟨s, h1, h2⟩; exact ⟨s, List.mem_range.1 h1, (refl_iff s).1 h2⟩
  · rintro ⟨s, h1, h2⟩; exact ⟨s, List.mem_range.2 h1, (refl_iff s).2 h2⟩

theorem mem_locs (h : Sweeps P w Sol) (side o a i j : Nat) :
    (⟨side, o, a, i, j⟩ : Loc) ∈ P.locs ↔
      side < 2 * P.dim ∧ P.bc side = .reflect ∧ o < 2 ^ P.dim ∧ Enters side o ∧ a < P.na ∧ InFace P side i j := by
  unfold Prob.locs
  rw [Boundary.C32_places P.dim h.d1 h.d3 P.na P.n false true P.refl]
  unfold Selected InFace
  simp only [forall_const, iff_true, refl_iff]

theorem locs_nodup (h : Sweeps P w Sol) : P.locs.Nodup :=
  Boundary.C32_nodup P.dim h.d1 h.d3 P.na P.n false true P.refl

theorem foldl_if_sum (l : List Nat) (c : Nat → Bool) (f : Nat → Nat) (z : Nat) :
    l.foldl (fun s side => if c side then s + f side else s) z = z + (l.map fun s => if c s then f s else 0).sum := by
  induction l generalizing z with
  | nil => simp
  | cons x l ih =>
    rw [List.foldl_cons, ih, List.map_cons, List.sum_cons]
    cases c x <;> simp <;> omega

/-- The operator's boundary size is the number of entries its vectors hold. -/
theorem bsize_eq (h : Sweeps P w Sol) : P.bsize = P.locs.length := by
  unfold Prob.bsize Prob.locs
  rw [Boundary.C32_length P.dim h.d1 h.d3 P.na P.n false true P.refl, foldl_if_sum, Nat.zero_add,
    Finset.sum_range]
  rw [← List.sum_ofFn]
  congr 1
  rw [List.ofFn_eq_map]
  simp only [forall_const]
  rw [← List.map_coe_finRange_eq_range, List.map_map]
  rfl

/-- The place of a boundary entry in a Krylov vector. -/
def Prob.slot (P : Prob F K) (l : Loc) : Nat := P.N + P.locs.idxOf l

/-- Every entering flux of a reflecting side has a place of its own behind the moments, inside the vector. -/
theorem slot_spec (h : Sweeps P w Sol) (l : Loc) (hl : l ∈ P.locs) :
    P.N ≤ P.slot l ∧ P.slot l < P.N + P.bsize ∧ ∀ l' ∈ P.locs, P.slot l' = P.slot l → l' = l := by
  unfold Prob.slot
  rw [bsize_eq h]
  have := List.idxOf_lt_length_of_mem hl
  refine ⟨by omega, by omega, fun l' hl' e => ?_⟩
  have e' : P.locs.idxOf l' = P.locs.idxOf l := by omega
  exact (List.idxOf_inj hl').1 e'

theorem setPsi_at (L : List Loc) (hL : L.Nodup) (v : List K) (hv : v.length = L.length) (b : Loc → K) (l : Loc)
    (hl : l ∈ L) : Boundary.setPsi L v b l = v.getD (L.idxOf l) 0 := by
  have h1 := Boundary.get_set L hL v hv b
  have hi := List.idxOf_lt_length_of_mem hl
  have h2 : (Boundary.getPsi L (Boundary.setPsi L v b))[L.idxOf l]? = v[L.idxOf l]? := by rw [h1]
  unfold Boundary.getPsi at h2
  rw [List.getElem?_map, List.getElem?_idxOf hl] at h2
  rw [List.getD_eq_getElem?_getD, ← h2]
  rfl

/-- Setting the entering fluxes of the reflecting sides from a vector, read entry by entry. -/
theorem get_setIn (h : Sweeps P w Sol) (x : Nat → K) (b : Bd F) (side o a i j : Nat) (hs : side < 2 * P.dim)
    (hi : InFace P side i j) :
    P.get (P.setIn x b side o a) i j =
      if (⟨side, o, a, i, j⟩ : Loc) ∈ P.locs then x (P.slot ⟨side, o, a, i, j⟩) else P.get (b side o a) i j := by
  unfold Prob.setIn
  rw [get_unflat h _ _ _ _ _ _ hs hi]
  by_cases hl : (⟨side, o, a, i, j⟩ : Loc) ∈ P.locs
  · rw [if_pos hl, setPsi_at _ (locs_nodup h) _ (by rw [List.length_map, List.length_range, bsize_eq h]) _ _ hl]
    have := List.idxOf_lt_length_of_mem hl
    rw [List.getD_eq_getElem?_getD, List.getElem?_map, List.getElem?_range (by rw [bsize_eq h]; exact this)]
    rfl
  · rw [if_neg hl, Boundary.setPsi_other _ _ _ _ hl]
    rfl

/-- A cleared container is zero in every entry. -/
theorem get_clear (h : Sweeps P w Sol) (b : Bd F) (side o a i j : Nat) (hs : side < 2 * P.dim)
    (ho : o < 2 ^ P.dim) (ha : a < P.na) (hi : InFace P side i j) : P.get (P.clear b side o a) i j = 0 := by
  unfold Prob.clear
  rw [get_unflat h _ _ _ _ _ _ hs hi]
  unfold Boundary.clear
  rw [if_pos]
  refine ⟨hs, ho, ha, ?_⟩
  rw [Boundary.faceSize_eq P.dim side h.d1 h.d3 hs]
  exact hi

end Detran.WGReflect
