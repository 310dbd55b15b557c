import Verif.Lemmas.WGReflect

/-!
# The sweeps of the three geometries satisfy what the within-group theorems use (C124)
-/

namespace Detran.WGReflect

open Detran.Sweep
open Detran.Boundary (Bd BC Loc Enters Mirror faceCells)
open Finset

variable {K : Type} [Field K]

theorem foldl_rel2 {S T A : Type} (R : S → T → Prop) (f : S → A → S) (g : T → A → T)
    (h : ∀ a s t, R s t → R (f s a) (g t a)) : ∀ (l : List A) s t, R s t → R (l.foldl f s) (l.foldl g t)
  | [], _, _, r => r
  | a :: l, _, _, r => foldl_rel2 R f g h l _ _ (h a _ _ r)

/-- Same faces and scalar flux. -/
def Agree {F : Type} (s t : St F K) : Prop := s.bdy = t.bdy ∧ s.phi = t.phi

def RAgree {E : Type} (r t : Run E K) : Prop := r.edge = t.edge ∧ r.phi = t.phi

theorem sweep_agree {F : Type} (order : List Nat) (na : Nat) (f g : St F K → Nat → Nat → St F K)
    (h : ∀ s t o a, Agree s t → Agree (f s o a) (g t o a)) (s : St F K) :
    Agree (sweepWith order na f s) (sweepWith order na g s) := by
  unfold sweepWith
  apply foldl_rel2 Agree
  · intro o s t hst
    apply foldl_rel2 Agree
    · intro a s t hst
      exact h s t o a hst
    · exact hst
  · exact ⟨rfl, rfl⟩

/-- Whether angular fluxes are stored does not matter to faces and scalar flux. -/
theorem angle1_up (eq : Nat → (Nat → K) → Nat → K → K × K) (src w nx) (up : Bool) (bup) (s t : St K K) (o a : Nat)
    (h : Agree s t) : Agree (angle1 eq src w nx up bup s o a) (angle1 eq src w nx true bup t o a) := by
  obtain ⟨h1, h2⟩ := h
  have := foldl_rel2 RAgree (cell1 (eq a (src o a)) up (w a)) (cell1 (eq a (src o a)) true (w a)) (by
    rintro i r t ⟨e1, e2⟩
    unfold cell1 record
    simp only [e1, e2]
    exact ⟨rfl, rfl⟩) (cells nx 0 o) ⟨bup s.bdy o a (in1 o) o a, s.phi, s.psi o a⟩
      ⟨bup t.bdy o a (in1 o) o a, t.phi, t.psi o a⟩ ⟨by rw [h1], h2⟩
  obtain ⟨e1, e2⟩ := this
  unfold angle1
  exact ⟨by simp only [h1, e1] at *; rw [e1], e2⟩

theorem angle2_up (eq : Nat → (Nat → K) → Nat → Nat → K × K → K × (K × K)) (src w nx ny) (up : Bool) (bup)
    (s t : St (Nat → K) K) (o a : Nat) (h : Agree s t) :
    Agree (angle2 eq src w nx ny up bup s o a) (angle2 eq src w nx ny true bup t o a) := by
  obtain ⟨h1, h2⟩ := h
  have := foldl_rel2 RAgree (row2 (eq a (src o a)) up (w a) nx (cells nx 0 o))
      (row2 (eq a (src o a)) true (w a) nx (cells nx 0 o)) (by
    rintro j r t ⟨e1, e2⟩
    have := foldl_rel2 RAgree (cell2 (eq a (src o a)) up (w a) nx j) (cell2 (eq a (src o a)) true (w a) nx j) (by
      rintro i r t ⟨e1, e2⟩
      unfold cell2 record
      simp only [e1, e2]
      exact ⟨rfl, rfl⟩) (cells nx 0 o) { r with edge := { r.edge with cur := r.edge.v j } }
        { t with edge := { t.edge with cur := t.edge.v j } } ⟨by simp only [e1], e2⟩
    obtain ⟨k1, k2⟩ := this
    unfold row2
    exact ⟨by simp only [k1], k2⟩) (cells ny 1 o)
      ⟨⟨0, bup s.bdy o a (in2 o).1 o a, bup s.bdy o a (in2 o).2 o a⟩, s.phi, s.psi o a⟩
      ⟨⟨0, bup t.bdy o a (in2 o).1 o a, bup t.bdy o a (in2 o).2 o a⟩, t.phi, t.psi o a⟩ ⟨by simp only [h1], h2⟩
  obtain ⟨e1, e2⟩ := this
  unfold angle2
  refine ⟨?_, e2⟩
  simp only [e1]
  rw [h1]

theorem angle3_up (eq : Nat → (Nat → K) → Nat → Nat → Nat → K × K × K → K × (K × K × K)) (src w nx ny nz)
    (up : Bool) (bup) (s t : St (Nat → Nat → K) K) (o a : Nat) (h : Agree s t) :
    Agree (angle3 eq src w nx ny nz up bup s o a) (angle3 eq src w nx ny nz true bup t o a) := by
  obtain ⟨h1, h2⟩ := h
  have := foldl_rel2 RAgree (plane3 (eq a (src o a)) up (w a) nx ny (cellsU nx 0 o) (cells ny 1 o))
      (plane3 (eq a (src o a)) true (w a) nx ny (cellsU nx 0 o) (cells ny 1 o)) (by
    intro k r t hrt
    unfold plane3
    refine foldl_rel2 RAgree _ _ ?_ (cells ny 1 o) r t hrt
    rintro j r t ⟨e1, e2⟩
    have := foldl_rel2 RAgree (cell3 (eq a (src o a)) up (w a) nx ny k j)
        (cell3 (eq a (src o a)) true (w a) nx ny k j) (by
      rintro i r t ⟨e1, e2⟩
      unfold cell3 record
      simp only [e1, e2]
      exact ⟨rfl, rfl⟩) (cellsU nx 0 o) { r with edge := { r.edge with cur := r.edge.yz k j } }
        { t with edge := { t.edge with cur := t.edge.yz k j } } ⟨by simp only [e1], e2⟩
    obtain ⟨k1, k2⟩ := this
    unfold row3
    exact ⟨by simp only [k1], k2⟩) (cells nz 2 o)
      ⟨⟨0, bup s.bdy o a (in3 o).1 o a, bup s.bdy o a (in3 o).2.1 o a, bup s.bdy o a (in3 o).2.2 o a⟩, s.phi, s.psi o a⟩
      ⟨⟨0, bup t.bdy o a (in3 o).1 o a, bup t.bdy o a (in3 o).2.1 o a, bup t.bdy o a (in3 o).2.2 o a⟩, t.phi, t.psi o a⟩
      ⟨by simp only [h1], h2⟩
  obtain ⟨e1, e2⟩ := this
  unfold angle3
  refine ⟨?_, e2⟩
  simp only [e1]
  rw [h1]

theorem bup_incident {F : Type} (dim : Nat) (h1 : 1 ≤ dim) (h3 : dim ≤ 3) (bc : Nat → BC F) (upd : Bool) :
    OnlyIncident dim (bupOf dim bc upd) := by
  cases upd with
  | true => exact Boundary.C30_update_only_incident dim h1 h3 bc
  | false => exact fun _ _ _ _ _ _ _ => rfl

theorem entry_facts (dim : Nat) (h1 : 1 ≤ dim) (h3 : dim ≤ 3) (o : Nat) (ho : o < 2 ^ dim) (d : Nat) (hd : d < dim) :
    entry o d < 2 * dim ∧ exit o d < 2 * dim ∧ Enters (entry o d) o ∧ ¬ Enters (exit o d) o ∧
      entry o d / 2 = d ∧ exit o d / 2 = d := by
  have k : ∀ o < 2 ^ dim, ∀ d < dim, entry o d < 2 * dim ∧ exit o d < 2 * dim ∧ Enters (entry o d) o ∧
      ¬ Enters (exit o d) o ∧ entry o d / 2 = d ∧ exit o d / 2 = d := by
    interval_cases dim <;> decide +kernel
  exact k o ho d hd

theorem leaves_exit (dim : Nat) (h1 : 1 ≤ dim) (h3 : dim ≤ 3) (f o : Nat) (hf : f < 2 * dim) (ho : o < 2 ^ dim)
    (he : ¬ Enters f o) : f / 2 < dim ∧ f = exit o (f / 2) := by
  have k : ∀ f < 2 * dim, ∀ o < 2 ^ dim, ¬ Enters f o → f / 2 < dim ∧ f = exit o (f / 2) := by
    interval_cases dim <;> decide +kernel
  exact k f hf o ho he

theorem posn_lt {n o d p : Nat} (hp : p < n) : posn n o d p < n := by
  unfold posn; split <;> omega

theorem cell2_lt {nx ny i j : Nat} (hi : i < nx) (hj : j < ny) : i + j * nx < nx * ny := by
  have := Nat.mul_le_mul_right nx (Nat.succ_le_of_lt hj)
  rw [Nat.succ_mul, Nat.mul_comm ny] at this
  omega

theorem cell3_lt {nx ny nz i j k : Nat} (hi : i < nx) (hj : j < ny) (hk : k < nz) :
    i + j * nx + k * nx * ny < nx * ny * nz := by
  have := cell2_lt (cell2_lt hi hj) hk
  rwa [← Nat.mul_assoc] at this

theorem posn_posn {n o d p : Nat} (hp : p < n) : posn n o d (posn n o d p) = p := by
  unfold posn; split <;> omega

/-! ## 1-D -/

theorem sweeps1 (sch : Nat → Nat → K → K → K × K) (hsch : ∀ a i, LinEq1 (sch a i)) (w : Nat → K) (nx na : Nat)
    (up : Bool) (bc : Nat → BC K) (order : List Nat) (hord : order.Perm (List.range 2)) (scat fixed mtod disc) :
    Sweeps (prob1 sch w nx na up bc order scat fixed mtod disc) w
      (fun q o a b p => Solves1 nx (fun i => sch a i (q i)) o b p) where
  d1 := le_refl 1
  d3 := (by decide : 1 ≤ 3)
  order := hord
  face := by
    intro side hs f i j hi
    obtain ⟨h1, h2⟩ := hi
    have hs' : side < 2 := hs
    have h1' : i < 1 := by interval_cases side <;> exact h1
    have h2' : j < 1 := by interval_cases side <;> exact h2
    obtain rfl : i = 0 := by omega
    obtain rfl : j = 0 := by omega
    rfl
  other := fun upd src s p q hq f => congrFun (congrArg Prod.fst
    (trace1_other (fun a q i => sch a i (q i)) src w nx up (bupOf 1 bc upd)
      (bup_incident 1 (by decide) (by decide) bc upd) s p q hq)) f
  inc := by
    intro upd src s o ho a f hf he
    obtain ⟨_, hfe⟩ := Boundary.enters_entry 1 (by decide) (by decide) f o hf ho he
    change (angle1 (fun a q i => sch a i (q i)) src w nx up (bupOf 1 bc upd) s o a).bdy f o a =
      bupOf 1 bc upd s.bdy o a f o a
    unfold angle1
    dsimp only
    rw [setB_other _ _ _ _ _ _ _ _ (fun e => by
      rw [(tables1 o ho).2] at e
      exact entry_ne_exit o (f / 2) 0 (hfe ▸ e.1))]
  solves := by
    intro upd src s
    obtain ⟨k1, k2⟩ := C28_sweep_solves_1D (fun a q i => sch a i (q i)) src w nx na (bupOf 1 bc upd)
      (bup_incident 1 (by decide) (by decide) bc upd) order hord s
    obtain ⟨e1, e2⟩ := sweep_agree order na
      (angle1 (fun a q i => sch a i (q i)) src w nx up (bupOf 1 bc upd))
      (angle1 (fun a q i => sch a i (q i)) src w nx true (bupOf 1 bc upd)) (fun s t o a h => angle1_up _ _ _ _ _ _ s t o a h) s
    refine ⟨_, ?_, fun c hc => (congrFun e2 c).trans (k2 c hc)⟩
    intro o ho a ha
    have := k1 o ho a ha
    rw [← e1] at this
    exact this
  lin := by
    rintro α β q1 q2 q3 o a b1 b2 b3 p1 p2 p3 ho ⟨V1, v1, v2, v3⟩ ⟨V2, u1, u2, u3⟩ hq hp hb
    obtain ⟨e1, e2, _, _, _, _⟩ := entry_facts 1 (by decide) (by decide) o ho 0 (by decide)
    have hb' : ∀ side < 2, b3 side = α * b1 side + β * b2 side := fun side hs => hb side hs 0 0 (by
      unfold InFace
      interval_cases side <;> exact ⟨Nat.one_pos, Nat.one_pos⟩)
    refine ⟨fun p => α * V1 p + β * V2 p, ?_, ?_, ?_⟩
    · dsimp only
      rw [hb' _ e1, v1, u1]
    · dsimp only
      rw [hb' _ e2, v2, u2]
    · intro p hp'
      have h1 := v3 p hp'
      have h2 := u3 p hp'
      dsimp only at h1 h2 ⊢
      rw [hq (posn nx o 0 p) (posn_lt (n := nx) hp'), hsch a, h1, h2, hp]
  det := by
    rintro q o a b p b' p' ho ⟨V, v1, v2, v3⟩ ⟨U, u1, u2, u3⟩ hin
    obtain ⟨e1, e2, e3, _, _, _⟩ := entry_facts 1 (by decide) (by decide) o ho 0 (by decide)
    have h0 : b (entry o 0) = b' (entry o 0) := hin _ e1 e3 0 0 (by
      unfold InFace
      generalize entry o 0 = side at e1
      have e1' : side < 2 := e1
      interval_cases side <;> exact ⟨Nat.one_pos, Nat.one_pos⟩)
    have hV : ∀ k ≤ nx, V k = U k := by
      intro k
      induction k with
      | zero => intro _; rw [v1, u1, h0]
      | succ k ih =>
        intro hk
        have h1 := v3 k (by omega)
        have h2 := u3 k (by omega)
        rw [ih (by omega), h2] at h1
        exact (Prod.mk.inj h1).2.symm
    refine ⟨fun side hs he i j hi => ?_, fun c hc => ?_⟩
    · obtain ⟨_, hse⟩ := leaves_exit 1 (by decide) (by decide) side o hs ho he
      have h0 : side / 2 = 0 := by have : side < 2 := hs; omega
      rw [h0] at hse
      change b side = b' side
      rw [hse, v2, u2, hV nx (le_refl _)]
    · have hc : c < nx := hc
      have hc' : posn nx o 0 c < nx := posn_lt hc
      have h1 := v3 _ hc'
      have h2 := u3 _ hc'
      rw [hV _ (by omega), h2, posn_posn hc] at h1
      exact (Prod.mk.inj h1).1.symm

/-! ## 2-D -/

theorem face2 (nx ny : Nat) (side i j : Nat) (hs : side < 4) :
    (i < faceCells 2 side (fun d => if d = 0 then nx else ny) 0 ∧
      j < faceCells 2 side (fun d => if d = 0 then nx else ny) 1) ↔
    i < (if side < 2 then ny else nx) ∧ j = 0 := by
  interval_cases side <;> simp [faceCells, List.range, List.range.loop, List.filter]

theorem sweeps2 (sch : Nat → Nat → Nat → K → K × K → K × (K × K)) (hsch : ∀ a i j, LinEq2 (sch a i j))
    (w : Nat → K) (nx ny na : Nat) (up : Bool) (bc : Nat → BC (Nat → K)) (order : List Nat)
    (hord : order.Perm (List.range 4)) (scat fixed mtod disc) :
    Sweeps (prob2 sch w nx ny na up bc order scat fixed mtod disc) w
      (fun q o a b p => Solves2 nx ny (fun i j => sch a i j (q (i + j * nx))) o b p) where
  d1 := (by decide : 1 ≤ 2)
  d3 := (by decide : 2 ≤ 3)
  order := hord
  face := by
    intro side hs f i j hi
    obtain ⟨_, rfl⟩ := (face2 nx ny side i j hs).1 hi
    rfl
  other := fun upd src s p q hq f => congrFun (congrArg Prod.fst
    (trace2_other (fun a q i j => sch a i j (q (i + j * nx))) src w nx ny up (bupOf 2 bc upd)
      (bup_incident 2 (by decide) (by decide) bc upd) s p q hq)) f
  inc := by
    intro upd src s o ho a f hf he
    obtain ⟨_, hfe⟩ := Boundary.enters_entry 2 (by decide) (by decide) f o hf ho he
    change (angle2 (fun a q i j => sch a i j (q (i + j * nx))) src w nx ny up (bupOf 2 bc upd) s o a).bdy f o a =
      bupOf 2 bc upd s.bdy o a f o a
    unfold angle2
    dsimp only
    rw [(tables2 o ho).2]
    rw [setB_other _ _ _ _ _ _ _ _ (fun e => entry_ne_exit o (f / 2) 1 (hfe ▸ e.1)),
      setB_other _ _ _ _ _ _ _ _ (fun e => entry_ne_exit o (f / 2) 0 (hfe ▸ e.1))]
  solves := by
    intro upd src s
    obtain ⟨k1, k2⟩ := C28_sweep_solves_2D (fun a q i j => sch a i j (q (i + j * nx))) src w nx ny na (bupOf 2 bc upd)
      (bup_incident 2 (by decide) (by decide) bc upd) order hord s
    obtain ⟨e1, e2⟩ := sweep_agree order na
      (angle2 (fun a q i j => sch a i j (q (i + j * nx))) src w nx ny up (bupOf 2 bc upd))
      (angle2 (fun a q i j => sch a i j (q (i + j * nx))) src w nx ny true (bupOf 2 bc upd))
      (fun s t o a h => angle2_up _ _ _ _ _ _ _ s t o a h) s
    refine ⟨_, ?_, fun c hc => (congrFun e2 c).trans (k2 c hc)⟩
    intro o ho a ha
    have := k1 o ho a ha
    rw [← e1] at this
    exact this
  lin := by
    rintro α β q1 q2 q3 o a b1 b2 b3 p1 p2 p3 ho ⟨V1, H1, v1, v2, v3⟩ ⟨V2, H2, u1, u2, u3⟩ hq hp hb
    obtain ⟨e1, e2, _, _, e5, e6⟩ := entry_facts 2 (by decide) (by decide) o ho 0 (by decide)
    obtain ⟨g1, g2, _, _, g5, g6⟩ := entry_facts 2 (by decide) (by decide) o ho 1 (by decide)
    have hbx : ∀ side < 4, side / 2 = 0 → ∀ i < ny, b3 side i = α * b1 side i + β * b2 side i :=
      fun side hs h0 i hi => hb side hs i 0 ((face2 nx ny side i 0 hs).2 ⟨by rw [if_pos (by omega)]; exact hi, rfl⟩)
    have hby : ∀ side < 4, side / 2 = 1 → ∀ i < nx, b3 side i = α * b1 side i + β * b2 side i :=
      fun side hs h0 i hi => hb side hs i 0 ((face2 nx ny side i 0 hs).2 ⟨by rw [if_neg (by omega)]; exact hi, rfl⟩)
    refine ⟨fun p q => α * V1 p q + β * V2 p q, fun p q => α * H1 p q + β * H2 p q, ?_, ?_, ?_⟩
    · intro q hq'
      have := posn_lt (o := o) (d := 1) hq'
      dsimp only
      rw [hbx _ e1 e5 _ this, hbx _ e2 e6 _ this, (v1 q hq').1, (v1 q hq').2, (u1 q hq').1, (u1 q hq').2]
      exact ⟨rfl, rfl⟩
    · intro p hp'
      have := posn_lt (o := o) (d := 0) hp'
      dsimp only
      rw [hby _ g1 g5 _ this, hby _ g2 g6 _ this, (v2 p hp').1, (v2 p hp').2, (u2 p hp').1, (u2 p hp').2]
      exact ⟨rfl, rfl⟩
    · intro p hp' q hq'
      dsimp only
      have := hsch a (posn nx o 0 p) (posn ny o 1 q) α β (q1 (posn nx o 0 p + posn ny o 1 q * nx))
        (q2 (posn nx o 0 p + posn ny o 1 q * nx)) (V1 p q, H1 p q) (V2 p q, H2 p q)
      have h1 := v3 p hp' q hq'
      have h2 := u3 p hp' q hq'
      dsimp only at this h1 h2 ⊢
      rw [hq (posn nx o 0 p + posn ny o 1 q * nx) (cell2_lt (nx := nx) (ny := ny) (posn_lt hp') (posn_lt hq')), this, h1, h2, hp]
  det := by
    rintro q o a b p b' p' ho ⟨V, H, v1, v2, v3⟩ ⟨U, G, u1, u2, u3⟩ hin
    obtain ⟨e1, e2, e3, _, e5, e6⟩ := entry_facts 2 (by decide) (by decide) o ho 0 (by decide)
    obtain ⟨g1, g2, g3, _, g5, g6⟩ := entry_facts 2 (by decide) (by decide) o ho 1 (by decide)
    have hx : ∀ t < ny, V 0 t = U 0 t := fun t ht => by
      rw [(v1 t ht).1, (u1 t ht).1]
      exact hin _ e1 e3 _ 0 ((face2 nx ny _ _ 0 e1).2 ⟨by rw [if_pos (by omega)]; exact posn_lt ht, rfl⟩)
    have hy : ∀ t < nx, H t 0 = G t 0 := fun t ht => by
      rw [(v2 t ht).1, (u2 t ht).1]
      exact hin _ g1 g3 _ 0 ((face2 nx ny _ _ 0 g1).2 ⟨by rw [if_neg (by omega)]; exact posn_lt ht, rfl⟩)
    have key : ∀ s r, (r < ny → s ≤ nx → V s r = U s r) ∧ (s < nx → r ≤ ny → H s r = G s r) := by
      intro s
      induction s with
      | zero =>
        intro r
        refine ⟨fun hr _ => hx r hr, ?_⟩
        induction r with
        | zero => exact fun hs _ => hy 0 hs
        | succ r ih =>
          intro hs hr
          have h1 := v3 0 hs r (by omega)
          have h2 := u3 0 hs r (by omega)
          rw [hx r (by omega), ih hs (by omega), h2] at h1
          exact (Prod.mk.inj (Prod.mk.inj h1).2).2.symm
      | succ s ihs =>
        have hv : ∀ r, r < ny → s + 1 ≤ nx → V (s + 1) r = U (s + 1) r := by
          intro r hr hs
          have h1 := v3 s (by omega) r hr
          have h2 := u3 s (by omega) r hr
          rw [(ihs r).1 hr (by omega), (ihs r).2 (by omega) (by omega), h2] at h1
          exact (Prod.mk.inj (Prod.mk.inj h1).2).1.symm
        intro r
        refine ⟨hv r, ?_⟩
        induction r with
        | zero => exact fun hs _ => hy (s + 1) hs
        | succ r ih =>
          intro hs hr
          have h1 := v3 (s + 1) hs r (by omega)
          have h2 := u3 (s + 1) hs r (by omega)
          rw [hv r (by omega) (by omega), ih hs (by omega), h2] at h1
          exact (Prod.mk.inj (Prod.mk.inj h1).2).2.symm
    refine ⟨fun side hs he i j hi => ?_, fun c hc => ?_⟩
    · obtain ⟨hs2, hse⟩ := leaves_exit 2 (by decide) (by decide) side o hs ho he
      obtain ⟨hi1, rfl⟩ := (face2 nx ny side i j hs).1 hi
      change b side i = b' side i
      have hs4 : side / 2 < 2 := hs2
      rcases (by omega : side / 2 = 0 ∨ side / 2 = 1) with h0 | h0
      · rw [if_pos (by omega)] at hi1
        rw [h0] at hse
        have hpi : posn ny o 1 i < ny := posn_lt hi1
        have k1 := (v1 _ hpi).2
        have k2 := (u1 _ hpi).2
        rw [posn_posn hi1, ← hse] at k1 k2
        rw [k1, k2, (key nx _).1 hpi (le_refl _)]
      · rw [if_neg (by omega)] at hi1
        rw [h0] at hse
        have hpi : posn nx o 0 i < nx := posn_lt hi1
        have k1 := (v2 _ hpi).2
        have k2 := (u2 _ hpi).2
        rw [posn_posn hi1, ← hse] at k1 k2
        rw [k1, k2, (key _ ny).2 hpi (le_refl _)]
    · have hc : c < nx * ny := hc
      have hnx : 0 < nx := by
        rcases Nat.eq_zero_or_pos nx with h | h
        · rw [h, Nat.zero_mul] at hc; omega
        · exact h
      have hi : c % nx < nx := Nat.mod_lt _ hnx
      have hj : c / nx < ny := Nat.div_lt_of_lt_mul hc
      have ec : c % nx + c / nx * nx = c := by
        have := Nat.div_add_mod c nx; rw [Nat.mul_comm] at this; omega
      have hi' : posn nx o 0 (c % nx) < nx := posn_lt hi
      have hj' : posn ny o 1 (c / nx) < ny := posn_lt hj
      have h1 := v3 _ hi' _ hj'
      have h2 := u3 _ hi' _ hj'
      rw [(key _ _).1 hj' (by omega), (key _ _).2 hi' (by omega), h2, posn_posn hi, posn_posn hj, ec] at h1
      exact (Prod.mk.inj h1).1.symm

/-! ## 3-D -/

theorem face3 (nx ny nz : Nat) (side i j : Nat) (hs : side < 6) :
    (i < faceCells 3 side (fun d => if d = 0 then nx else if d = 1 then ny else nz) 0 ∧
      j < faceCells 3 side (fun d => if d = 0 then nx else if d = 1 then ny else nz) 1) ↔
    i < (if side < 4 then nz else ny) ∧ j < (if side < 2 then ny else nx) := by
  interval_cases side <;> simp [faceCells, List.range, List.range.loop, List.filter]

theorem sweeps3 (sch : Nat → Nat → Nat → Nat → K → K × K × K → K × (K × K × K))
    (hsch : ∀ a i j k, LinEq3 (sch a i j k)) (w : Nat → K) (nx ny nz na : Nat) (hfit : nx ≤ 2 ^ 32) (up : Bool)
    (bc : Nat → BC (Nat → Nat → K)) (order : List Nat) (hord : order.Perm (List.range 8)) (scat fixed mtod disc) :
    Sweeps (prob3 sch w nx ny nz na up bc order scat fixed mtod disc) w
      (fun q o a b p => Solves3 nx ny nz (fun i j k => sch a i j k (q (i + j * nx + k * nx * ny))) o b p) where
  d1 := (by decide : 1 ≤ 3)
  d3 := (by decide : 3 ≤ 3)
  order := hord
  face := fun _ _ _ _ _ _ => rfl
  other := fun upd src s p q hq f => congrFun (congrArg Prod.fst
    (trace3_other (fun a q i j k => sch a i j k (q (i + j * nx + k * nx * ny))) src w nx ny nz up (bupOf 3 bc upd)
      (bup_incident 3 (by decide) (by decide) bc upd) s p q hq)) f
  inc := by
    intro upd src s o ho a f hf he
    obtain ⟨_, hfe⟩ := Boundary.enters_entry 3 (by decide) (by decide) f o hf ho he
    change (angle3 (fun a q i j k => sch a i j k (q (i + j * nx + k * nx * ny))) src w nx ny nz up
      (bupOf 3 bc upd) s o a).bdy f o a = bupOf 3 bc upd s.bdy o a f o a
    unfold angle3
    dsimp only
    rw [(tables3 o ho).2]
    rw [setB_other _ _ _ _ _ _ _ _ (fun e => entry_ne_exit o (f / 2) 2 (hfe ▸ e.1)),
      setB_other _ _ _ _ _ _ _ _ (fun e => entry_ne_exit o (f / 2) 1 (hfe ▸ e.1)),
      setB_other _ _ _ _ _ _ _ _ (fun e => entry_ne_exit o (f / 2) 0 (hfe ▸ e.1))]
  solves := by
    intro upd src s
    obtain ⟨k1, k2⟩ := C28_sweep_solves_3D (fun a q i j k => sch a i j k (q (i + j * nx + k * nx * ny))) src w
      nx ny nz na hfit (bupOf 3 bc upd) (bup_incident 3 (by decide) (by decide) bc upd) order hord s
    obtain ⟨e1, e2⟩ := sweep_agree order na
      (angle3 (fun a q i j k => sch a i j k (q (i + j * nx + k * nx * ny))) src w nx ny nz up (bupOf 3 bc upd))
      (angle3 (fun a q i j k => sch a i j k (q (i + j * nx + k * nx * ny))) src w nx ny nz true (bupOf 3 bc upd))
      (fun s t o a h => angle3_up _ _ _ _ _ _ _ _ s t o a h) s
    refine ⟨_, ?_, fun c hc => (congrFun e2 c).trans (k2 c hc)⟩
    intro o ho a ha
    have := k1 o ho a ha
    rw [← e1] at this
    exact this
  lin := by
    rintro α β q1 q2 q3 o a b1 b2 b3 p1 p2 p3 ho ⟨V1, H1, Z1, v1, v2, v3, v4⟩ ⟨V2, H2, Z2, u1, u2, u3, u4⟩ hq hp hb
    obtain ⟨e1, e2, _, _, e5, e6⟩ := entry_facts 3 (by decide) (by decide) o ho 0 (by decide)
    obtain ⟨g1, g2, _, _, g5, g6⟩ := entry_facts 3 (by decide) (by decide) o ho 1 (by decide)
    obtain ⟨k1, k2, _, _, k5, k6⟩ := entry_facts 3 (by decide) (by decide) o ho 2 (by decide)
    have hb' : ∀ side < 6, ∀ i j, i < (if side < 4 then nz else ny) → j < (if side < 2 then ny else nx) →
        b3 side i j = α * b1 side i j + β * b2 side i j :=
      fun side hs i j hi hj => hb side hs i j ((face3 nx ny nz side i j hs).2 ⟨hi, hj⟩)
    refine ⟨fun p q t => α * V1 p q t + β * V2 p q t, fun p q t => α * H1 p q t + β * H2 p q t,
      fun p q t => α * Z1 p q t + β * Z2 p q t, ?_, ?_, ?_, ?_⟩
    · intro q hq' t ht
      have h1 := posn_lt (o := o) (d := 1) hq'
      have h2 := posn_lt (o := o) (d := 2) ht
      dsimp only
      rw [hb' _ e1 _ _ (by rw [if_pos (by omega)]; exact h2) (by rw [if_pos (by omega)]; exact h1),
        hb' _ e2 _ _ (by rw [if_pos (by omega)]; exact h2) (by rw [if_pos (by omega)]; exact h1),
        (v1 q hq' t ht).1, (v1 q hq' t ht).2, (u1 q hq' t ht).1, (u1 q hq' t ht).2]
      exact ⟨rfl, rfl⟩
    · intro p hp' t ht
      have h1 := posn_lt (o := o) (d := 0) hp'
      have h2 := posn_lt (o := o) (d := 2) ht
      dsimp only
      rw [hb' _ g1 _ _ (by rw [if_pos (by omega)]; exact h2) (by rw [if_neg (by omega)]; exact h1),
        hb' _ g2 _ _ (by rw [if_pos (by omega)]; exact h2) (by rw [if_neg (by omega)]; exact h1),
        (v2 p hp' t ht).1, (v2 p hp' t ht).2, (u2 p hp' t ht).1, (u2 p hp' t ht).2]
      exact ⟨rfl, rfl⟩
    · intro p hp' q hq'
      have h1 := posn_lt (o := o) (d := 0) hp'
      have h2 := posn_lt (o := o) (d := 1) hq'
      dsimp only
      rw [hb' _ k1 _ _ (by rw [if_neg (by omega)]; exact h2) (by rw [if_neg (by omega)]; exact h1),
        hb' _ k2 _ _ (by rw [if_neg (by omega)]; exact h2) (by rw [if_neg (by omega)]; exact h1),
        (v3 p hp' q hq').1, (v3 p hp' q hq').2, (u3 p hp' q hq').1, (u3 p hp' q hq').2]
      exact ⟨rfl, rfl⟩
    · intro p hp' q hq' t ht
      dsimp only
      have := hsch a (posn nx o 0 p) (posn ny o 1 q) (posn nz o 2 t) α β
        (q1 (posn nx o 0 p + posn ny o 1 q * nx + posn nz o 2 t * nx * ny))
        (q2 (posn nx o 0 p + posn ny o 1 q * nx + posn nz o 2 t * nx * ny))
        (V1 p q t, H1 p q t, Z1 p q t) (V2 p q t, H2 p q t, Z2 p q t)
      have h1 := v4 p hp' q hq' t ht
      have h2 := u4 p hp' q hq' t ht
      dsimp only at this h1 h2 ⊢
      rw [hq (posn nx o 0 p + posn ny o 1 q * nx + posn nz o 2 t * nx * ny) (cell3_lt (nx := nx) (ny := ny) (nz := nz)
        (posn_lt hp') (posn_lt hq') (posn_lt ht)), this, h1, h2, hp]
  det := by
    rintro q o a b p b' p' ho ⟨V, H, Z, v1, v2, v3, v4⟩ ⟨U, G, Y, u1, u2, u3, u4⟩ hin
    obtain ⟨e1, e2, e3, _, e5, e6⟩ := entry_facts 3 (by decide) (by decide) o ho 0 (by decide)
    obtain ⟨g1, g2, g3, _, g5, g6⟩ := entry_facts 3 (by decide) (by decide) o ho 1 (by decide)
    obtain ⟨k1, k2, k3, _, k5, k6⟩ := entry_facts 3 (by decide) (by decide) o ho 2 (by decide)
    have hin' : ∀ side < 6, Enters side o → ∀ i j, i < (if side < 4 then nz else ny) →
        j < (if side < 2 then ny else nx) → b side i j = b' side i j :=
      fun side hs he i j hi hj => hin side hs he i j ((face3 nx ny nz side i j hs).2 ⟨hi, hj⟩)
    have key : ∀ n r s t, r + s + t ≤ n →
        (s < ny → t < nz → r ≤ nx → V r s t = U r s t) ∧ (r < nx → t < nz → s ≤ ny → H r s t = G r s t) ∧
        (r < nx → s < ny → t ≤ nz → Z r s t = Y r s t) := by
      intro n
      induction n with
      | zero =>
        intro r s t hn
        obtain rfl : r = 0 := by omega
        obtain rfl : s = 0 := by omega
        obtain rfl : t = 0 := by omega
        refine ⟨fun hs ht _ => ?_, fun hr ht _ => ?_, fun hr hs _ => ?_⟩
        · rw [(v1 0 hs 0 ht).1, (u1 0 hs 0 ht).1]
          exact hin' _ e1 e3 _ _ (by rw [if_pos (by omega)]; exact posn_lt ht)
            (by rw [if_pos (by omega)]; exact posn_lt hs)
        · rw [(v2 0 hr 0 ht).1, (u2 0 hr 0 ht).1]
          exact hin' _ g1 g3 _ _ (by rw [if_pos (by omega)]; exact posn_lt ht)
            (by rw [if_neg (by omega)]; exact posn_lt hr)
        · rw [(v3 0 hr 0 hs).1, (u3 0 hr 0 hs).1]
          exact hin' _ k1 k3 _ _ (by rw [if_neg (by omega)]; exact posn_lt hs)
            (by rw [if_neg (by omega)]; exact posn_lt hr)
      | succ n ih =>
        have cell : ∀ r s t, r + s + t ≤ n → r < nx → s < ny → t < nz →
            (V (r + 1) s t, H r (s + 1) t, Z r s (t + 1)) = (U (r + 1) s t, G r (s + 1) t, Y r s (t + 1)) := by
          intro r s t hn hr hs ht
          obtain ⟨i1, i2, i3⟩ := ih r s t hn
          have h1 := v4 r hr s hs t ht
          have h2 := u4 r hr s hs t ht
          rw [i1 hs ht (by omega), i2 hr ht (by omega), i3 hr hs (by omega), h2] at h1
          exact (Prod.mk.inj h1).2.symm
        intro r s t hn
        refine ⟨fun hs ht hr => ?_, fun hr ht hs => ?_, fun hr hs ht => ?_⟩
        · cases r with
          | zero =>
            rw [(v1 s hs t ht).1, (u1 s hs t ht).1]
            exact hin' _ e1 e3 _ _ (by rw [if_pos (by omega)]; exact posn_lt ht)
              (by rw [if_pos (by omega)]; exact posn_lt hs)
          | succ r => exact (Prod.mk.inj (cell r s t (by omega) (by omega) hs ht)).1
        · cases s with
          | zero =>
            rw [(v2 r hr t ht).1, (u2 r hr t ht).1]
            exact hin' _ g1 g3 _ _ (by rw [if_pos (by omega)]; exact posn_lt ht)
              (by rw [if_neg (by omega)]; exact posn_lt hr)
          | succ s => exact (Prod.mk.inj (Prod.mk.inj (cell r s t (by omega) hr (by omega) ht)).2).1
        · cases t with
          | zero =>
            rw [(v3 r hr s hs).1, (u3 r hr s hs).1]
            exact hin' _ k1 k3 _ _ (by rw [if_neg (by omega)]; exact posn_lt hs)
              (by rw [if_neg (by omega)]; exact posn_lt hr)
          | succ t => exact (Prod.mk.inj (Prod.mk.inj (cell r s t (by omega) hr hs (by omega))).2).2
    refine ⟨fun side hs he i j hi => ?_, fun c hc => ?_⟩
    · obtain ⟨hs2, hse⟩ := leaves_exit 3 (by decide) (by decide) side o hs ho he
      obtain ⟨hi1, hj1⟩ := (face3 nx ny nz side i j hs).1 hi
      change b side i j = b' side i j
      rcases (by omega : side / 2 = 0 ∨ side / 2 = 1 ∨ side / 2 = 2) with h0 | h0 | h0
      · rw [if_pos (by omega)] at hi1 hj1
        rw [h0] at hse
        have hpi : posn nz o 2 i < nz := posn_lt hi1
        have hpj : posn ny o 1 j < ny := posn_lt hj1
        have l1 := (v1 _ hpj _ hpi).2
        have l2 := (u1 _ hpj _ hpi).2
        rw [posn_posn hi1, posn_posn hj1, ← hse] at l1 l2
        rw [l1, l2, (key _ nx _ _ (le_refl _)).1 hpj hpi (le_refl _)]
      · rw [if_pos (by omega)] at hi1
        rw [if_neg (by omega)] at hj1
        rw [h0] at hse
        have hpi : posn nz o 2 i < nz := posn_lt hi1
        have hpj : posn nx o 0 j < nx := posn_lt hj1
        have l1 := (v2 _ hpj _ hpi).2
        have l2 := (u2 _ hpj _ hpi).2
        rw [posn_posn hi1, posn_posn hj1, ← hse] at l1 l2
        rw [l1, l2, (key _ _ ny _ (le_refl _)).2.1 hpj hpi (le_refl _)]
      · rw [if_neg (by omega)] at hi1
        rw [if_neg (by omega)] at hj1
        rw [h0] at hse
        have hpi : posn ny o 1 i < ny := posn_lt hi1
        have hpj : posn nx o 0 j < nx := posn_lt hj1
        have l1 := (v3 _ hpj _ hpi).2
        have l2 := (u3 _ hpj _ hpi).2
        rw [posn_posn hi1, posn_posn hj1, ← hse] at l1 l2
        rw [l1, l2, (key _ _ _ nz (le_refl _)).2.2 hpj hpi (le_refl _)]
    · have hc : c < nx * ny * nz := hc
      have hxy : 0 < nx * ny := by
        rcases Nat.eq_zero_or_pos (nx * ny) with h | h
        · rw [h, Nat.zero_mul] at hc; omega
        · exact h
      have hnx : 0 < nx := Nat.pos_of_ne_zero fun h => by rw [h, Nat.zero_mul] at hxy; omega
      have hk : c / (nx * ny) < nz := Nat.div_lt_of_lt_mul hc
      have hr : c % (nx * ny) < nx * ny := Nat.mod_lt _ hxy
      have hj : c % (nx * ny) / nx < ny := Nat.div_lt_of_lt_mul hr
      have hi : c % (nx * ny) % nx < nx := Nat.mod_lt _ hnx
      have ec : c % (nx * ny) % nx + c % (nx * ny) / nx * nx + c / (nx * ny) * nx * ny = c := by
        rw [Nat.mul_comm _ nx, Nat.mod_add_div, Nat.mul_assoc, Nat.mul_comm _ (nx * ny)]
        exact Nat.mod_add_div _ _
      generalize c % (nx * ny) % nx = i at *
      generalize c % (nx * ny) / nx = j at *
      generalize c / (nx * ny) = k at *
      have hi' : posn nx o 0 i < nx := posn_lt hi
      have hj' : posn ny o 1 j < ny := posn_lt hj
      have hk' : posn nz o 2 k < nz := posn_lt hk
      have h1 := v4 _ hi' _ hj' _ hk'
      have h2 := u4 _ hi' _ hj' _ hk'
      obtain ⟨l1, l2, l3⟩ := key _ _ _ _ (le_refl (posn nx o 0 i + posn ny o 1 j + posn nz o 2 k))
      rw [l1 hj' hk' (by omega), l2 hi' hk' (by omega), l3 hi' hj' (by omega), h2, posn_posn hi, posn_posn hj,
        posn_posn hk, ec] at h1
      exact (Prod.mk.inj h1).1.symm

end Detran.WGReflect
