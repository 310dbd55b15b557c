import Verif.Props.Sweep
import Mathlib.Analysis.SpecialFunctions.ExpDeriv
import Mathlib.Tactic.Linarith

/-!
# Linearity, sign and constant solutions of sweeps (C27, C63)
-/

namespace Detran.Sweep

open Detran.Solver Finset

/-! ## C27: linearity -/

section linear
variable {K : Type} [Field K]

/-- `s3 = α s1 + β s2` in boundary flux, scalar flux and angular flux. -/
def Lin1 (α β : K) (s1 s2 s3 : St K K) : Prop :=
  (∀ f o a, s3.bdy f o a = α * s1.bdy f o a + β * s2.bdy f o a) ∧
  (∀ c, s3.phi c = α * s1.phi c + β * s2.phi c) ∧
  ∀ o a c, s3.psi o a c = α * s1.psi o a c + β * s2.psi o a c

def Lin2 (α β : K) (s1 s2 s3 : St (Nat → K) K) : Prop :=
  (∀ f o a i, s3.bdy f o a i = α * s1.bdy f o a i + β * s2.bdy f o a i) ∧
  (∀ c, s3.phi c = α * s1.phi c + β * s2.phi c) ∧
  ∀ o a c, s3.psi o a c = α * s1.psi o a c + β * s2.psi o a c

def Lin3 (α β : K) (s1 s2 s3 : St (Nat → Nat → K) K) : Prop :=
  (∀ f o a i j, s3.bdy f o a i j = α * s1.bdy f o a i j + β * s2.bdy f o a i j) ∧
  (∀ c, s3.phi c = α * s1.phi c + β * s2.phi c) ∧
  ∀ o a c, s3.psi o a c = α * s1.psi o a c + β * s2.psi o a c

/-- A 1-D cell equation that is linear in (source, incident flux). -/
def LinEq1 (sch : K → K → K × K) : Prop :=
  ∀ α β s s' p p' : K, sch (α * s + β * s') (α * p + β * p') =
    (α * (sch s p).1 + β * (sch s' p').1, α * (sch s p).2 + β * (sch s' p').2)

def LinEq2 (sch : K → K × K → K × (K × K)) : Prop :=
  ∀ (α β s s' : K) (p p' : K × K),
    sch (α * s + β * s') (α * p.1 + β * p'.1, α * p.2 + β * p'.2) =
    (α * (sch s p).1 + β * (sch s' p').1,
      (α * (sch s p).2.1 + β * (sch s' p').2.1, α * (sch s p).2.2 + β * (sch s' p').2.2))

def LinEq3 (sch : K → K × K × K → K × (K × K × K)) : Prop :=
  ∀ (α β s s' : K) (p p' : K × K × K),
    sch (α * s + β * s')
      (α * p.1 + β * p'.1, α * p.2.1 + β * p'.2.1, α * p.2.2 + β * p'.2.2) =
    (α * (sch s p).1 + β * (sch s' p').1,
      (α * (sch s p).2.1 + β * (sch s' p').2.1, α * (sch s p).2.2.1 + β * (sch s' p').2.2.1,
        α * (sch s p).2.2.2 + β * (sch s' p').2.2.2))

/-- Every scheme is linear in source and incident flux, for any cell data. -/
theorem C27_schemes_linear [LE K] [DecidableLE K] (ex : K → K) (mu eta xi dx dy dz sigt : K) :
    LinEq1 (dd1 mu dx sigt) ∧ LinEq1 (sd1 mu dx sigt) ∧ LinEq1 (sc1 ex mu dx sigt) ∧
    LinEq2 (dd2 mu eta dx dy sigt) ∧ LinEq2 (sd2 mu eta dx dy sigt) ∧
    LinEq2 (sc2 ex mu eta dx dy sigt) ∧ LinEq3 (dd3 mu eta xi dx dy dz sigt) := by
  refine ⟨?_, ?_, ?_, ?_, ?_, ?_, ?_⟩
  · intro α β s s' p p'; simp only [dd1]; ext <;> simp only [] <;> ring
  · intro α β s s' p p'; simp only [sd1]; ext <;> simp only [] <;> ring
  · intro α β s s' p p'; simp only [sc1]; ext <;> simp only [] <;> ring
  · intro α β s s' p p'; simp only [dd2]; ext <;> simp only [] <;> ring
  · intro α β s s' p p'; simp only [sd2]; ext <;> simp only [] <;> ring
  · intro α β s s' p p'; simp only [sc2]
    split_ifs <;> ext <;> simp only [] <;> ring
  · intro α β s s' p p'; simp only [dd3]; ext <;> simp only [] <;> ring

/-- Boundary updates linear in the boundary flux. -/
def LinB1 (bup : (Nat → Nat → Nat → K) → Nat → Nat → Nat → Nat → Nat → K) : Prop :=
  ∀ (α β : K) b1 b2 b3, (∀ f o a, b3 f o a = α * b1 f o a + β * b2 f o a) →
    ∀ o a f o' a', bup b3 o a f o' a' = α * bup b1 o a f o' a' + β * bup b2 o a f o' a'

def LinB2 (bup : (Nat → Nat → Nat → Nat → K) → Nat → Nat → Nat → Nat → Nat → Nat → K) : Prop :=
  ∀ (α β : K) b1 b2 b3, (∀ f o a i, b3 f o a i = α * b1 f o a i + β * b2 f o a i) →
    ∀ o a f o' a' i, bup b3 o a f o' a' i = α * bup b1 o a f o' a' i + β * bup b2 o a f o' a' i

def LinB3 (bup : (Nat → Nat → Nat → Nat → Nat → K) → Nat → Nat → Nat → Nat → Nat → Nat → Nat → K) :
    Prop :=
  ∀ (α β : K) b1 b2 b3, (∀ f o a i j, b3 f o a i j = α * b1 f o a i j + β * b2 f o a i j) →
    ∀ o a f o' a' i j,
      bup b3 o a f o' a' i j = α * bup b1 o a f o' a' i j + β * bup b2 o a f o' a' i j

theorem lin_upd {α β : K} {f1 f2 f3 : Nat → K} (h : ∀ c, f3 c = α * f1 c + β * f2 c) {i : Nat}
    {v1 v2 v3 : K} (hv : v3 = α * v1 + β * v2) (c : Nat) :
    upd f3 i v3 c = α * upd f1 i v1 c + β * upd f2 i v2 c := by
  unfold upd; split_ifs
  · exact hv
  · exact h c

theorem lin_upd2 {α β : K} {f1 f2 f3 : Nat → Nat → K}
    (h : ∀ c d, f3 c d = α * f1 c d + β * f2 c d) {i j : Nat}
    {v1 v2 v3 : K} (hv : v3 = α * v1 + β * v2) (c d : Nat) :
    upd2 f3 i j v3 c d = α * upd2 f1 i j v1 c d + β * upd2 f2 i j v2 c d := by
  by_cases e : c = i ∧ d = j
  · obtain ⟨rfl, rfl⟩ := e
    rw [upd2_same, upd2_same, upd2_same, hv]
  · rw [upd2_ne _ _ e, upd2_ne _ _ e, upd2_ne _ _ e, h]

theorem sweepWith_rel {F : Type} (R : St F K → St F K → St F K → Prop) (order : List Nat) (na : Nat)
    (f1 f2 f3 : St F K → Nat → Nat → St F K)
    (h0 : ∀ s1 s2 s3, R s1 s2 s3 → R { s1 with phi := fun _ => 0 } { s2 with phi := fun _ => 0 }
      { s3 with phi := fun _ => 0 })
    (h : ∀ o ∈ order, ∀ a < na, ∀ s1 s2 s3, R s1 s2 s3 → R (f1 s1 o a) (f2 s2 o a) (f3 s3 o a))
    (s1 s2 s3 : St F K) (hs : R s1 s2 s3) :
    R (sweepWith order na f1 s1) (sweepWith order na f2 s2) (sweepWith order na f3 s3) := by
  unfold sweepWith
  apply foldl_rel3 R
  · intro o ho s1 s2 s3 hr
    apply foldl_rel3 R
    · intro a ha s1 s2 s3 hr
      exact h o ho a (List.mem_range.1 ha) s1 s2 s3 hr
    · exact hr
  · exact h0 _ _ _ hs

/-- A 1-D sweep is linear in the pair (source, boundary flux), for every scheme linear in each
    cell, and so for every scheme of the library (`C27_schemes_linear`). -/
theorem C27_sweep_linear_1D (sch : Nat → Nat → K → K → K × K) (hsch : ∀ a i, LinEq1 (sch a i))
    (src1 src2 : Nat → Nat → Nat → K) (α β : K) (w : Nat → K) (nx na : Nat) (up : Bool) (bup)
    (hb : LinB1 bup) (order : List Nat) (s1 s2 s3 : St K K) (hs : Lin1 α β s1 s2 s3) :
    let run := fun (src : Nat → Nat → Nat → K) s =>
      sweepWith order na (angle1 (fun a q i => sch a i (q i)) src w nx up bup) s
    Lin1 α β (run src1 s1) (run src2 s2)
      (run (fun o a c => α * src1 o a c + β * src2 o a c) s3) := by
  apply sweepWith_rel (Lin1 α β) order na _ _ _ _ _ s1 s2 s3 hs
  · rintro s1 s2 s3 ⟨h1, h2, h3⟩
    exact ⟨h1, fun c => by ring, h3⟩
  · rintro o _ a _ s1 s2 s3 ⟨h1, h2, h3⟩
    have hbb := hb α β _ _ _ h1 o a
    have := foldl_rel3 (fun r1 r2 r3 : Run K K => r3.edge = α * r1.edge + β * r2.edge ∧
        (∀ c, r3.phi c = α * r1.phi c + β * r2.phi c) ∧
        ∀ c, r3.psi c = α * r1.psi c + β * r2.psi c)
      (cell1 (fun i => sch a i (src1 o a i)) up (w a))
      (cell1 (fun i => sch a i (src2 o a i)) up (w a))
      (cell1 (fun i => sch a i (α * src1 o a i + β * src2 o a i)) up (w a))
      (cells nx 0 o) (by
        rintro i _ r1 r2 r3 ⟨e1, e2, e3⟩
        simp only [cell1, record]
        rw [e1, hsch a i]
        refine ⟨rfl, ?_, ?_⟩
        · intro c
          apply lin_upd e2
          rw [e2]; ring
        · intro c
          cases up
          · exact e3 c
          · exact lin_upd e3 rfl c)
      ⟨bup s1.bdy o a (in1 o) o a, s1.phi, s1.psi o a⟩
      ⟨bup s2.bdy o a (in1 o) o a, s2.phi, s2.psi o a⟩
      ⟨bup s3.bdy o a (in1 o) o a, s3.phi, s3.psi o a⟩
      ⟨hbb _ _ _, h2, h3 o a⟩
    obtain ⟨e1, e2, e3⟩ := this
    refine ⟨?_, e2, ?_⟩
    · intro f o' a'
      simp only [angle1, setB]
      split_ifs
      · exact e1
      · exact hbb _ _ _
    · intro o' a' c
      simp only [angle1]
      cases up
      · exact h3 o' a' c
      · simp only [if_true, setPsi]
        split_ifs
        · exact e3 c
        · exact h3 o' a' c

/-- A 2-D sweep is linear. -/
theorem C27_sweep_linear_2D (sch : Nat → Nat → Nat → K → K × K → K × (K × K))
    (hsch : ∀ a i j, LinEq2 (sch a i j))
    (src1 src2 : Nat → Nat → Nat → K) (α β : K) (w : Nat → K) (nx ny na : Nat) (up : Bool) (bup)
    (hb : LinB2 bup) (order : List Nat) (s1 s2 s3 : St (Nat → K) K) (hs : Lin2 α β s1 s2 s3) :
    let run := fun (src : Nat → Nat → Nat → K) s => sweepWith order na
      (angle2 (fun a q i j => sch a i j (q (i + j * nx))) src w nx ny up bup) s
    Lin2 α β (run src1 s1) (run src2 s2)
      (run (fun o a c => α * src1 o a c + β * src2 o a c) s3) := by
  apply sweepWith_rel (Lin2 α β) order na _ _ _ _ _ s1 s2 s3 hs
  · rintro s1 s2 s3 ⟨h1, h2, h3⟩
    exact ⟨h1, fun c => by ring, h3⟩
  · rintro o _ a _ s1 s2 s3 ⟨h1, h2, h3⟩
    have hbb := hb α β _ _ _ h1 o a
    let R := fun r1 r2 r3 : Run (Edge2 K) K => r3.edge.cur = α * r1.edge.cur + β * r2.edge.cur ∧
        (∀ c, r3.edge.v c = α * r1.edge.v c + β * r2.edge.v c) ∧
        (∀ c, r3.edge.h c = α * r1.edge.h c + β * r2.edge.h c) ∧
        (∀ c, r3.phi c = α * r1.phi c + β * r2.phi c) ∧
        ∀ c, r3.psi c = α * r1.psi c + β * r2.psi c
    have := foldl_rel3 R
      (row2 (fun i j => sch a i j (src1 o a (i + j * nx))) up (w a) nx (cells nx 0 o))
      (row2 (fun i j => sch a i j (src2 o a (i + j * nx))) up (w a) nx (cells nx 0 o))
      (row2 (fun i j => sch a i j (α * src1 o a (i + j * nx) + β * src2 o a (i + j * nx))) up (w a)
        nx (cells nx 0 o))
      (cells ny 1 o) (by
        rintro j _ r1 r2 r3 ⟨e0, e1, e2, e3, e4⟩
        have := foldl_rel3 R
          (cell2 (fun i j => sch a i j (src1 o a (i + j * nx))) up (w a) nx j)
          (cell2 (fun i j => sch a i j (src2 o a (i + j * nx))) up (w a) nx j)
          (cell2 (fun i j => sch a i j (α * src1 o a (i + j * nx) + β * src2 o a (i + j * nx))) up
            (w a) nx j)
          (cells nx 0 o) (by
            rintro i _ r1 r2 r3 ⟨e0, e1, e2, e3, e4⟩
            simp only [cell2, record, R]
            rw [e0, e2]
            have := hsch a i j α β (src1 o a (i + j * nx)) (src2 o a (i + j * nx))
              (r1.edge.cur, r1.edge.h i) (r2.edge.cur, r2.edge.h i)
            simp only [] at this
            rw [this]
            refine ⟨rfl, e1, fun c => lin_upd e2 rfl c, ?_, ?_⟩
            · intro c
              apply lin_upd e3
              rw [e3]; ring
            · intro c
              cases up
              · exact e4 c
              · exact lin_upd e4 rfl c)
          { r1 with edge := { r1.edge with cur := r1.edge.v j } }
          { r2 with edge := { r2.edge with cur := r2.edge.v j } }
          { r3 with edge := { r3.edge with cur := r3.edge.v j } }
          ⟨e1 j, e1, e2, e3, e4⟩
        obtain ⟨k0, k1, k2, k3, k4⟩ := this
        exact ⟨k0, fun c => lin_upd k1 k0 c, k2, k3, k4⟩)
      ⟨⟨0, bup s1.bdy o a (in2 o).1 o a, bup s1.bdy o a (in2 o).2 o a⟩, s1.phi, s1.psi o a⟩
      ⟨⟨0, bup s2.bdy o a (in2 o).1 o a, bup s2.bdy o a (in2 o).2 o a⟩, s2.phi, s2.psi o a⟩
      ⟨⟨0, bup s3.bdy o a (in2 o).1 o a, bup s3.bdy o a (in2 o).2 o a⟩, s3.phi, s3.psi o a⟩
      ⟨by simp, hbb _ _ _, hbb _ _ _, h2, h3 o a⟩
    obtain ⟨e0, e1, e2, e3, e4⟩ := this
    refine ⟨?_, e3, ?_⟩
    · intro f o' a' i
      simp only [angle2, setB]
      split_ifs
      · exact e2 i
      · exact e1 i
      · exact hbb _ _ _ _
    · intro o' a' c
      simp only [angle2]
      cases up
      · exact h3 o' a' c
      · simp only [if_true, setPsi]
        split_ifs
        · exact e4 c
        · exact h3 o' a' c

/-- A 3-D sweep is linear. -/
theorem C27_sweep_linear_3D (sch : Nat → Nat → Nat → Nat → K → K × K × K → K × (K × K × K))
    (hsch : ∀ a i j k, LinEq3 (sch a i j k))
    (src1 src2 : Nat → Nat → Nat → K) (α β : K) (w : Nat → K) (nx ny nz na : Nat) (up : Bool) (bup)
    (hb : LinB3 bup) (order : List Nat) (s1 s2 s3 : St (Nat → Nat → K) K)
    (hs : Lin3 α β s1 s2 s3) :
    let run := fun (src : Nat → Nat → Nat → K) s => sweepWith order na
      (angle3 (fun a q i j k => sch a i j k (q (i + j * nx + k * nx * ny))) src w nx ny nz up bup) s
    Lin3 α β (run src1 s1) (run src2 s2)
      (run (fun o a c => α * src1 o a c + β * src2 o a c) s3) := by
  apply sweepWith_rel (Lin3 α β) order na _ _ _ _ _ s1 s2 s3 hs
  · rintro s1 s2 s3 ⟨h1, h2, h3⟩
    exact ⟨h1, fun c => by ring, h3⟩
  · rintro o _ a _ s1 s2 s3 ⟨h1, h2, h3⟩
    have hbb := hb α β _ _ _ h1 o a
    let R := fun r1 r2 r3 : Run (Edge3 K) K => r3.edge.cur = α * r1.edge.cur + β * r2.edge.cur ∧
        (∀ c d, r3.edge.yz c d = α * r1.edge.yz c d + β * r2.edge.yz c d) ∧
        (∀ c d, r3.edge.xz c d = α * r1.edge.xz c d + β * r2.edge.xz c d) ∧
        (∀ c d, r3.edge.xy c d = α * r1.edge.xy c d + β * r2.edge.xy c d) ∧
        (∀ c, r3.phi c = α * r1.phi c + β * r2.phi c) ∧
        ∀ c, r3.psi c = α * r1.psi c + β * r2.psi c
    let E1 := fun i j k => sch a i j k (src1 o a (i + j * nx + k * nx * ny))
    let E2 := fun i j k => sch a i j k (src2 o a (i + j * nx + k * nx * ny))
    let E3 := fun i j k => sch a i j k (α * src1 o a (i + j * nx + k * nx * ny) +
      β * src2 o a (i + j * nx + k * nx * ny))
    have := foldl_rel3 R
      (plane3 E1 up (w a) nx ny (cellsU nx 0 o) (cells ny 1 o))
      (plane3 E2 up (w a) nx ny (cellsU nx 0 o) (cells ny 1 o))
      (plane3 E3 up (w a) nx ny (cellsU nx 0 o) (cells ny 1 o))
      (cells nz 2 o) (by
        intro k _ r1 r2 r3 hr
        refine foldl_rel3 R (row3 E1 up (w a) nx ny (cellsU nx 0 o) k)
          (row3 E2 up (w a) nx ny (cellsU nx 0 o) k) (row3 E3 up (w a) nx ny (cellsU nx 0 o) k)
          (cells ny 1 o) ?_ r1 r2 r3 hr
        rintro j _ r1 r2 r3 ⟨e0, e1, e2, ez, e3, e4⟩
        have := foldl_rel3 R (cell3 E1 up (w a) nx ny k j) (cell3 E2 up (w a) nx ny k j)
          (cell3 E3 up (w a) nx ny k j) (cellsU nx 0 o) (by
            rintro i _ r1 r2 r3 ⟨e0, e1, e2, ez, e3, e4⟩
            simp only [cell3, record, R, E1, E2, E3]
            rw [e0, e2, ez]
            have := hsch a i j k α β (src1 o a (i + j * nx + k * nx * ny))
              (src2 o a (i + j * nx + k * nx * ny))
              (r1.edge.cur, r1.edge.xz k i, r1.edge.xy j i)
              (r2.edge.cur, r2.edge.xz k i, r2.edge.xy j i)
            simp only [] at this
            rw [this]
            refine ⟨rfl, e1, fun c d => lin_upd2 e2 rfl c d, fun c d => lin_upd2 ez rfl c d, ?_, ?_⟩
            · intro c
              apply lin_upd e3
              rw [e3]; ring
            · intro c
              cases up
              · exact e4 c
              · exact lin_upd e4 rfl c)
          { r1 with edge := { r1.edge with cur := r1.edge.yz k j } }
          { r2 with edge := { r2.edge with cur := r2.edge.yz k j } }
          { r3 with edge := { r3.edge with cur := r3.edge.yz k j } }
          ⟨e1 k j, e1, e2, ez, e3, e4⟩
        obtain ⟨k0, k1, k2, kz, k3, k4⟩ := this
        exact ⟨k0, fun c d => lin_upd2 k1 k0 c d, k2, kz, k3, k4⟩)
      ⟨⟨0, bup s1.bdy o a (in3 o).1 o a, bup s1.bdy o a (in3 o).2.1 o a,
        bup s1.bdy o a (in3 o).2.2 o a⟩, s1.phi, s1.psi o a⟩
      ⟨⟨0, bup s2.bdy o a (in3 o).1 o a, bup s2.bdy o a (in3 o).2.1 o a,
        bup s2.bdy o a (in3 o).2.2 o a⟩, s2.phi, s2.psi o a⟩
      ⟨⟨0, bup s3.bdy o a (in3 o).1 o a, bup s3.bdy o a (in3 o).2.1 o a,
        bup s3.bdy o a (in3 o).2.2 o a⟩, s3.phi, s3.psi o a⟩
      ⟨by simp, hbb _ _ _, hbb _ _ _, hbb _ _ _, h2, h3 o a⟩
    obtain ⟨e0, e1, e2, ez, e3, e4⟩ := this
    refine ⟨?_, e3, ?_⟩
    · intro f o' a' i j
      simp only [angle3, setB]
      split_ifs
      · exact ez i j
      · exact e2 i j
      · exact e1 i j
      · exact hbb _ _ _ _ _
    · intro o' a' c
      simp only [angle3]
      cases up
      · exact h3 o' a' c
      · simp only [if_true, setPsi]
        split_ifs
        · exact e4 c
        · exact h3 o' a' c

end linear

/-! ## C27: sign -/

section sign
variable {K : Type} [Field K] [LinearOrder K] [IsStrictOrderedRing K]

/-- The step scheme in one cell: non-negative data give a non-negative centre and outgoing flux. -/
theorem C27_sd1_cell (mu dx sigt s p : K) (hmu : 0 < mu) (hdx : 0 < dx) (hs : 0 ≤ sigt)
    (hq : 0 ≤ s) (hp : 0 ≤ p) : 0 ≤ (sd1 mu dx sigt s p).1 ∧ 0 ≤ (sd1 mu dx sigt s p).2 := by
  have : 0 ≤ 1 / (sigt + mu / dx) * (s + mu / dx * p) := by positivity
  exact ⟨this, this⟩

theorem C27_sd2_cell (mu eta dx dy sigt s : K) (p : K × K) (hmu : 0 < mu) (heta : 0 < eta)
    (hdx : 0 < dx) (hdy : 0 < dy) (hs : 0 ≤ sigt) (hq : 0 ≤ s) (hp1 : 0 ≤ p.1) (hp2 : 0 ≤ p.2) :
    0 ≤ (sd2 mu eta dx dy sigt s p).1 ∧ 0 ≤ (sd2 mu eta dx dy sigt s p).2.1 ∧
      0 ≤ (sd2 mu eta dx dy sigt s p).2.2 := by
  have : 0 ≤ 1 / (sigt + mu / dx + eta / dy) * (s + mu / dx * p.1 + eta / dy * p.2) := by
    positivity
  exact ⟨this, this, this⟩

/-- All fluxes non-negative. -/
def Pos1 (s : St K K) : Prop :=
  (∀ f o a, 0 ≤ s.bdy f o a) ∧ (∀ c, 0 ≤ s.phi c) ∧ ∀ o a c, 0 ≤ s.psi o a c

def Pos2 (s : St (Nat → K) K) : Prop :=
  (∀ f o a i, 0 ≤ s.bdy f o a i) ∧ (∀ c, 0 ≤ s.phi c) ∧ ∀ o a c, 0 ≤ s.psi o a c

theorem upd_nonneg {f : Nat → K} (h : ∀ c, 0 ≤ f c) {i : Nat} {v : K} (hv : 0 ≤ v) (c : Nat) :
    0 ≤ upd f i v c := by
  unfold upd; split_ifs
  · exact hv
  · exact h c

theorem foldl_inv {S A : Type} (P : S → Prop) (f : S → A → S) :
    ∀ (l : List A), (∀ a ∈ l, ∀ s, P s → P (f s a)) → ∀ s, P s → P (l.foldl f s) := by
  intro l
  induction l with
  | nil => intro _ _ h; exact h
  | cons a l ih =>
      intro h s hs
      exact ih (fun b hb => h b (List.mem_cons_of_mem _ hb)) _ (h a List.mem_cons_self _ hs)

theorem sweepWith_inv {F : Type} (P : St F K → Prop) (order : List Nat) (na : Nat)
    (f : St F K → Nat → Nat → St F K)
    (h0 : ∀ s, P s → P { s with phi := fun _ => 0 })
    (h : ∀ o ∈ order, ∀ a < na, ∀ s, P s → P (f s o a)) (s : St F K) (hs : P s) :
    P (sweepWith order na f s) := by
  unfold sweepWith
  apply foldl_inv P
  · intro o ho s hs
    exact foldl_inv P _ _ (fun a ha s hs => h o ho a (List.mem_range.1 ha) s hs) s hs
  · exact h0 _ hs

/-- Positivity of a 1-D sweep with any scheme positive in each cell. -/
theorem sweep1_pos (eq : Nat → (Nat → K) → Nat → K → K × K) (src : Nat → Nat → Nat → K)
    (w : Nat → K) (nx na : Nat) (up : Bool) (bup)
    (hb : ∀ b : Nat → Nat → Nat → K, (∀ f o a, 0 ≤ b f o a) → ∀ o a f o' a', 0 ≤ bup b o a f o' a')
    (order : List Nat) (hw : ∀ a < na, 0 ≤ w a)
    (heq : ∀ o ∈ order, ∀ a < na, ∀ i < nx, ∀ p, 0 ≤ p →
      0 ≤ (eq a (src o a) i p).1 ∧ 0 ≤ (eq a (src o a) i p).2)
    (s : St K K) (hs : Pos1 s) : Pos1 (sweepWith order na (angle1 eq src w nx up bup) s) := by
  apply sweepWith_inv Pos1 order na _ _ _ s hs
  · rintro s ⟨h1, _, h3⟩; exact ⟨h1, fun _ => le_refl _, h3⟩
  · rintro o ho a ha s ⟨h1, h2, h3⟩
    obtain ⟨e1, e2, e3⟩ := foldl_inv (fun r : Run K K => 0 ≤ r.edge ∧ (∀ c, 0 ≤ r.phi c) ∧
        ∀ c, 0 ≤ r.psi c) (cell1 (eq a (src o a)) up (w a)) (cells nx 0 o) (by
        rintro i hi r ⟨e1, e2, e3⟩
        obtain ⟨p1, p2⟩ := heq o ho a ha i (mem_cells.1 hi) r.edge e1
        refine ⟨p2, fun c => upd_nonneg e2 (add_nonneg (e2 i) (mul_nonneg (hw a ha) p1)) c, ?_⟩
        intro c
        cases up
        · exact e3 c
        · exact upd_nonneg e3 p1 c) ⟨bup s.bdy o a (in1 o) o a, s.phi, s.psi o a⟩
        ⟨hb _ h1 _ _ _ _ _, h2, h3 o a⟩
    refine ⟨?_, e2, ?_⟩
    · intro f o' a'
      simp only [angle1, setB]
      split_ifs
      · exact e1
      · exact hb _ h1 _ _ _ _ _
    · intro o' a' c
      simp only [angle1]
      cases up
      · exact h3 o' a' c
      · simp only [if_true, setPsi]
        split_ifs
        · exact e3 c
        · exact h3 o' a' c

/-- Positivity of a 2-D sweep with any scheme positive in each cell. -/
theorem sweep2_pos (eq : Nat → (Nat → K) → Nat → Nat → K × K → K × (K × K))
    (src : Nat → Nat → Nat → K) (w : Nat → K) (nx ny na : Nat) (up : Bool) (bup)
    (hb : ∀ b : Nat → Nat → Nat → Nat → K, (∀ f o a i, 0 ≤ b f o a i) →
      ∀ o a f o' a' i, 0 ≤ bup b o a f o' a' i)
    (order : List Nat) (hw : ∀ a < na, 0 ≤ w a)
    (heq : ∀ o ∈ order, ∀ a < na, ∀ i < nx, ∀ j < ny, ∀ p : K × K, 0 ≤ p.1 → 0 ≤ p.2 →
      0 ≤ (eq a (src o a) i j p).1 ∧ 0 ≤ (eq a (src o a) i j p).2.1 ∧
        0 ≤ (eq a (src o a) i j p).2.2)
    (s : St (Nat → K) K) (hs : Pos2 s) :
    Pos2 (sweepWith order na (angle2 eq src w nx ny up bup) s) := by
  apply sweepWith_inv Pos2 order na _ _ _ s hs
  · rintro s ⟨h1, _, h3⟩; exact ⟨h1, fun _ => le_refl _, h3⟩
  · rintro o ho a ha s ⟨h1, h2, h3⟩
    let P := fun r : Run (Edge2 K) K => 0 ≤ r.edge.cur ∧ (∀ c, 0 ≤ r.edge.v c) ∧
      (∀ c, 0 ≤ r.edge.h c) ∧ (∀ c, 0 ≤ r.phi c) ∧ ∀ c, 0 ≤ r.psi c
    obtain ⟨_, ev, eh, e2, e3⟩ := foldl_inv P
      (row2 (eq a (src o a)) up (w a) nx (cells nx 0 o)) (cells ny 1 o) (by
        rintro j hj r ⟨e1, ev, eh, e2, e3⟩
        obtain ⟨k1, kv, kh, k2, k3⟩ := foldl_inv P (cell2 (eq a (src o a)) up (w a) nx j)
          (cells nx 0 o) (by
            rintro i hi r ⟨e1, ev, eh, e2, e3⟩
            obtain ⟨p1, p2, p3⟩ := heq o ho a ha i (mem_cells.1 hi) j (mem_cells.1 hj)
              (r.edge.cur, r.edge.h i) e1 (eh i)
            refine ⟨p2, ev, fun c => upd_nonneg eh p3 c,
              fun c => upd_nonneg e2 (add_nonneg (e2 _) (mul_nonneg (hw a ha) p1)) c, ?_⟩
            intro c
            cases up
            · exact e3 c
            · exact upd_nonneg e3 p1 c)
          { r with edge := { r.edge with cur := r.edge.v j } } ⟨ev j, ev, eh, e2, e3⟩
        exact ⟨k1, fun c => upd_nonneg kv k1 c, kh, k2, k3⟩)
      ⟨⟨0, bup s.bdy o a (in2 o).1 o a, bup s.bdy o a (in2 o).2 o a⟩, s.phi, s.psi o a⟩
      ⟨le_refl _, hb _ h1 _ _ _ _ _, hb _ h1 _ _ _ _ _, h2, h3 o a⟩
    refine ⟨?_, e2, ?_⟩
    · intro f o' a' i
      simp only [angle2, setB]
      split_ifs
      · exact eh i
      · exact ev i
      · exact hb _ h1 _ _ _ _ _ _
    · intro o' a' c
      simp only [angle2]
      cases up
      · exact h3 o' a' c
      · simp only [if_true, setPsi]
        split_ifs
        · exact e3 c
        · exact h3 o' a' c

/-- 1-D step sweeps keep all fluxes non-negative. -/
theorem C27_step_positive_1D (mu dx sigt : Nat → K) (src : Nat → Nat → Nat → K) (w : Nat → K)
    (nx na : Nat) (up : Bool) (bup)
    (hb : ∀ b : Nat → Nat → Nat → K, (∀ f o a, 0 ≤ b f o a) → ∀ o a f o' a', 0 ≤ bup b o a f o' a')
    (order : List Nat) (hw : ∀ a < na, 0 ≤ w a) (hmu : ∀ a < na, 0 < mu a)
    (hdx : ∀ i < nx, 0 < dx i) (hst : ∀ i < nx, 0 ≤ sigt i)
    (hsrc : ∀ o ∈ order, ∀ a < na, ∀ i < nx, 0 ≤ src o a i) (s : St K K) (hs : Pos1 s) :
    Pos1 (sweepWith order na (angle1 (mesh1 sd1 mu dx sigt) src w nx up bup) s) := by
  apply sweep1_pos _ _ _ _ _ _ _ hb _ hw _ _ hs
  intro o ho a ha i hi p hp
  exact C27_sd1_cell _ _ _ _ _ (hmu a ha) (hdx i hi) (hst i hi) (hsrc o ho a ha i hi) hp

/-- 2-D step sweeps keep all fluxes non-negative. -/
theorem C27_step_positive_2D (mu eta dx dy sigt : Nat → K) (src : Nat → Nat → Nat → K)
    (w : Nat → K) (nx ny na : Nat) (up : Bool) (bup)
    (hb : ∀ b : Nat → Nat → Nat → Nat → K, (∀ f o a i, 0 ≤ b f o a i) →
      ∀ o a f o' a' i, 0 ≤ bup b o a f o' a' i)
    (order : List Nat) (hw : ∀ a < na, 0 ≤ w a) (hmu : ∀ a < na, 0 < mu a ∧ 0 < eta a)
    (hdx : ∀ i < nx, 0 < dx i) (hdy : ∀ j < ny, 0 < dy j) (hst : ∀ c < nx * ny, 0 ≤ sigt c)
    (hsrc : ∀ o ∈ order, ∀ a < na, ∀ c < nx * ny, 0 ≤ src o a c) (s : St (Nat → K) K)
    (hs : Pos2 s) :
    Pos2 (sweepWith order na (angle2 (mesh2 sd2 mu eta dx dy sigt nx) src w nx ny up bup) s) := by
  apply sweep2_pos _ _ _ _ _ _ _ _ hb _ hw _ _ hs
  intro o ho a ha i hi j hj p hp1 hp2
  have hc := Detran.Mesh.idx_row_lt hi hj
  exact C27_sd2_cell _ _ _ _ _ _ _ (hmu a ha).1 (hmu a ha).2 (hdx i hi) (hdy j hj) (hst _ hc)
    (hsrc o ho a ha _ hc) hp1 hp2

/-- The hypotheses hold for a vacuum slab of two cells. -/
example : Pos1 (sweepWith [0, 1] 1 (angle1 (mesh1 sd1 (fun _ => (1 / 2 : ℚ)) (fun _ => 1)
      (fun i => [1, 0].getD i 0)) (fun _ _ _ => 1) (fun _ => 1) 2 true (fun b _ _ => b))
    ⟨fun _ _ _ => 0, fun _ => 0, fun _ _ _ => 0⟩) :=
  C27_step_positive_1D _ _ _ _ _ _ _ _ _ (fun _ h _ _ _ _ _ => h _ _ _) _ (fun _ _ => by norm_num)
    (fun _ _ => by norm_num) (fun _ _ => by norm_num) (by decide +kernel)
    (fun _ _ _ _ _ _ => by norm_num) _
    ⟨fun _ _ _ => le_refl _, fun _ => le_refl _, fun _ _ _ => le_refl _⟩

/-- Diamond differences do not preserve sign: a thick cell turns a positive incident flux into a
    negative outgoing one. -/
theorem C27_diamond_negative :
    (dd1 (1 / 2 : ℚ) 1 4 0 1).2 < 0 ∧ (dd2 (1 / 2 : ℚ) (1 / 2) 1 1 4 0 (1, 1)).2.1 < 0 ∧
    (dd3 (1 / 2 : ℚ) (1 / 2) (1 / 2) 1 1 1 8 0 (1, 1, 1)).2.1 < 0 := by decide +kernel

/-- Diamond differences are positive in cells thin enough that `sigt dx ≤ 2 mu`. -/
theorem C27_diamond_thin_positive (mu dx sigt s p : K) (hmu : 0 < mu) (hdx : 0 < dx)
    (hs : 0 ≤ sigt) (hq : 0 ≤ s) (hp : 0 ≤ p) (hthin : sigt * dx ≤ 2 * mu) :
    0 ≤ (dd1 mu dx sigt s p).1 ∧ 0 ≤ (dd1 mu dx sigt s p).2 := by
  have hc : 0 < sigt + 2 * mu / dx := by positivity
  constructor
  · simp only [dd1]; positivity
  · have : (dd1 mu dx sigt s p).2 = (2 * s + (2 * mu / dx - sigt) * p) / (sigt + 2 * mu / dx) := by
      simp only [dd1]
      rw [eq_div_iff hc.ne', sub_mul, one_div, mul_assoc, mul_assoc,
        mul_comm (s + 2 * mu / dx * p), ← mul_assoc (sigt + 2 * mu / dx)⁻¹, inv_mul_cancel₀ hc.ne']
      ring
    rw [this]
    have h1 : 0 ≤ 2 * mu / dx - sigt := by
      rw [sub_nonneg, le_div_iff₀ hdx]; exact hthin
    positivity

example : (dd1 (1 / 2 : ℚ) 1 1 0 1).2 = 0 ∧ (1 : ℚ) * 1 ≤ 2 * (1 / 2) := by decide +kernel

end sign

/-! ## C27: step characteristics with the true exponential -/

section sc

theorem exp_neg_quadratic (t : ℝ) (ht : 0 ≤ t) : Real.exp (-t) ≤ 1 - t + t ^ 2 / 2 := by
  have h1 := Real.quadratic_le_exp_of_nonneg ht
  rw [Real.exp_neg]
  have hp : 0 < 1 + t + t ^ 2 / 2 := by positivity
  have : (Real.exp t)⁻¹ ≤ (1 + t + t ^ 2 / 2)⁻¹ := inv_anti₀ hp h1
  refine this.trans ?_
  rw [inv_le_iff_one_le_mul₀ hp]
  nlinarith [sq_nonneg (t ^ 2)]

/-- 1-D step characteristics are positive in every non-void cell. -/
theorem C27_sc1_cell (mu dx sigt s p : ℝ) (hmu : 0 < mu) (hdx : 0 < dx) (hs : 0 < sigt)
    (hq : 0 ≤ s) (hp : 0 ≤ p) :
    0 ≤ (sc1 Real.exp mu dx sigt s p).1 ∧ 0 ≤ (sc1 Real.exp mu dx sigt s p).2 := by
  have ht : 0 < sigt * dx / mu := by positivity
  have hA1 : Real.exp (-(sigt * dx / mu)) ≤ 1 := Real.exp_le_one_iff.2 (by linarith)
  have hA0 := Real.exp_pos (-(sigt * dx / mu))
  have hA2 := Real.add_one_le_exp (-(sigt * dx / mu))
  simp only [sc1]
  generalize Real.exp (-(sigt * dx / mu)) = A at *
  have h1 : 0 ≤ 1 - A := by linarith
  have h2 : 0 ≤ sigt * dx + mu * (A - 1) := by
    have := mul_le_mul_of_nonneg_left hA2 hmu.le
    have e : mu * (-(sigt * dx / mu) + 1) = mu - sigt * dx := by field_simp; ring
    rw [e] at this
    linarith
  constructor
  · positivity
  · positivity

/-- 2-D step characteristics are positive in every non-void cell. -/
theorem C27_sc2_cell (mu eta dx dy sigt s : ℝ) (p : ℝ × ℝ) (hmu : 0 < mu) (heta : 0 < eta)
    (hdx : 0 < dx) (hdy : 0 < dy) (hs : 0 < sigt) (hq : 0 ≤ s) (hp1 : 0 ≤ p.1) (hp2 : 0 ≤ p.2) :
    0 ≤ (sc2 Real.exp mu eta dx dy sigt s p).1 ∧ 0 ≤ (sc2 Real.exp mu eta dx dy sigt s p).2.1 ∧
      0 ≤ (sc2 Real.exp mu eta dx dy sigt s p).2.2 := by
  have hal : 0 < sigt * (dx / mu) := by positivity
  have hbe : 0 < sigt * (dy / eta) := by positivity
  have hQ : 0 ≤ s / sigt := by positivity
  simp only [sc2]
  generalize sigt * (dx / mu) = al at *
  generalize sigt * (dy / eta) = be at *
  generalize s / sigt = Q at *
  obtain ⟨v, h⟩ := p
  simp only at hp1 hp2 ⊢
  -- facts about the attenuation and the mean attenuation over thickness `t`
  have fact : ∀ t : ℝ, 0 < t → ∃ e o : ℝ, Real.exp (-t) = e ∧ (1 - Real.exp (-t)) / t = o ∧
      0 ≤ e ∧ e ≤ 1 ∧ 0 ≤ o ∧ o ≤ 1 ∧ 1 - e = o * t ∧ 2 - 2 * o ≤ t ∧ 1 - e ≤ t := by
    intro t ht
    have h1 := (Real.exp_pos (-t)).le
    have h2 : Real.exp (-t) ≤ 1 := Real.exp_le_one_iff.2 (by linarith)
    have h3 := Real.add_one_le_exp (-t)
    have h4 := exp_neg_quadratic t ht.le
    refine ⟨_, _, rfl, rfl, h1, h2, div_nonneg (by linarith) ht.le, ?_, ?_, ?_, by linarith⟩
    · rw [div_le_one ht]; linarith
    · field_simp
    · have : (1 - t / 2) ≤ (1 - Real.exp (-t)) / t := by
        rw [le_div_iff₀ ht]; nlinarith
      linarith
  by_cases hr : al / be ≤ 1
  · rw [if_pos hr]
    obtain ⟨e, o, he, ho, e0, e1, o0, o1, eo, ot, et⟩ := fact al hal
    have hr0 : 0 < al / be := by positivity
    have hbe' : be * (al / be) = al := by field_simp
    rw [he] at ho ⊢
    rw [ho]
    generalize al / be = r at *
    have k1 : 0 ≤ 1 - r := by linarith
    have a1 : (1 - r) * e + r * o ≤ 1 := by nlinarith
    have out1 : 0 ≤ Q + (v - Q) * (1 - r) * e + (h - Q) * r * o := by
      have : Q + (v - Q) * (1 - r) * e + (h - Q) * r * o =
        Q * (1 - ((1 - r) * e + r * o)) + v * ((1 - r) * e) + h * (r * o) := by ring
      rw [this]
      have := mul_nonneg hQ (sub_nonneg.2 a1)
      positivity
    have out2 : 0 ≤ Q + (v - Q) * o := by nlinarith
    refine ⟨?_, out1, out2⟩
    have hcen : Q - (Q + (v - Q) * (1 - r) * e + (h - Q) * r * o - v) / al -
        (Q + (v - Q) * o - h) / be =
        (Q * (al - (1 - e + r * (1 + e - 2 * o))) + v * (1 - ((1 - r) * e + r * o)) +
          h * (r * (1 - o))) / al := by
      rw [← hbe']; field_simp; ring
    simp only []
    rw [hcen]
    apply div_nonneg _ hal.le
    have c1 : 0 ≤ al - (1 - e + r * (1 + e - 2 * o)) := by nlinarith
    have c2 : 0 ≤ 1 - ((1 - r) * e + r * o) := by linarith
    have c3 : 0 ≤ r * (1 - o) := mul_nonneg hr0.le (by linarith)
    have := mul_nonneg hQ c1
    have := mul_nonneg hp1 c2
    have := mul_nonneg hp2 c3
    linarith
  · rw [if_neg hr]
    push Not at hr
    obtain ⟨e, o, he, ho, e0, e1, o0, o1, eo, ot, et⟩ := fact be hbe
    rw [he] at ho ⊢
    rw [ho]
    have hr0 : 0 < be / al := by positivity
    have hr1 : be / al ≤ 1 := by
      rw [div_le_one hal]
      rw [lt_div_iff₀ hbe] at hr; linarith
    have hal' : al * (be / al) = be := by field_simp
    have hinv : al / be = 1 / (be / al) := by field_simp
    rw [hinv]
    generalize be / al = r at *
    have k1 : 0 ≤ 1 - r := by linarith
    have a1 : (1 - r) * e + r * o ≤ 1 := by nlinarith
    have eout : Q + (v - Q) * o / (1 / r) + (h - Q) * (1 - 1 / (1 / r)) * e =
        Q * (1 - ((1 - r) * e + r * o)) + h * ((1 - r) * e) + v * (r * o) := by
      field_simp; ring
    have out1 : 0 ≤ Q + (h - Q) * o := by nlinarith
    have out2 : 0 ≤ Q + (v - Q) * o / (1 / r) + (h - Q) * (1 - 1 / (1 / r)) * e := by
      rw [eout]
      have := mul_nonneg hQ (sub_nonneg.2 a1)
      positivity
    refine ⟨?_, out1, out2⟩
    simp only []
    rw [eout]
    have hcen : Q - (Q + (h - Q) * o - v) / al -
        (Q * (1 - ((1 - r) * e + r * o)) + h * ((1 - r) * e) + v * (r * o) - h) / be =
        (Q * (be - (1 - e + r * (1 + e - 2 * o))) + h * (1 - ((1 - r) * e + r * o)) +
          v * (r * (1 - o))) / be := by
      rw [← hal']; field_simp; ring
    rw [hcen]
    apply div_nonneg _ hbe.le
    have c1 : 0 ≤ be - (1 - e + r * (1 + e - 2 * o)) := by nlinarith
    have c2 : 0 ≤ 1 - ((1 - r) * e + r * o) := by linarith
    have c3 : 0 ≤ r * (1 - o) := mul_nonneg hr0.le (by linarith)
    have := mul_nonneg hQ c1
    have := mul_nonneg hp2 c2
    have := mul_nonneg hp1 c3
    linarith

/-- 1-D step-characteristic sweeps keep all fluxes non-negative on non-void meshes. -/
theorem C27_sc_positive_1D (mu dx sigt : Nat → ℝ) (src : Nat → Nat → Nat → ℝ) (w : Nat → ℝ)
    (nx na : Nat) (up : Bool) (bup)
    (hb : ∀ b : Nat → Nat → Nat → ℝ, (∀ f o a, 0 ≤ b f o a) → ∀ o a f o' a', 0 ≤ bup b o a f o' a')
    (order : List Nat) (hw : ∀ a < na, 0 ≤ w a) (hmu : ∀ a < na, 0 < mu a)
    (hdx : ∀ i < nx, 0 < dx i) (hst : ∀ i < nx, 0 < sigt i)
    (hsrc : ∀ o ∈ order, ∀ a < na, ∀ i < nx, 0 ≤ src o a i) (s : St ℝ ℝ) (hs : Pos1 s) :
    Pos1 (sweepWith order na (angle1 (mesh1 (sc1 Real.exp) mu dx sigt) src w nx up bup) s) := by
  apply sweep1_pos _ _ _ _ _ _ _ hb _ hw _ _ hs
  intro o ho a ha i hi p hp
  exact C27_sc1_cell _ _ _ _ _ (hmu a ha) (hdx i hi) (hst i hi) (hsrc o ho a ha i hi) hp

/-- 2-D step-characteristic sweeps keep all fluxes non-negative on non-void meshes. -/
theorem C27_sc_positive_2D (mu eta dx dy sigt : Nat → ℝ) (src : Nat → Nat → Nat → ℝ)
    (w : Nat → ℝ) (nx ny na : Nat) (up : Bool) (bup)
    (hb : ∀ b : Nat → Nat → Nat → Nat → ℝ, (∀ f o a i, 0 ≤ b f o a i) →
      ∀ o a f o' a' i, 0 ≤ bup b o a f o' a' i)
    (order : List Nat) (hw : ∀ a < na, 0 ≤ w a) (hmu : ∀ a < na, 0 < mu a ∧ 0 < eta a)
    (hdx : ∀ i < nx, 0 < dx i) (hdy : ∀ j < ny, 0 < dy j) (hst : ∀ c < nx * ny, 0 < sigt c)
    (hsrc : ∀ o ∈ order, ∀ a < na, ∀ c < nx * ny, 0 ≤ src o a c) (s : St (Nat → ℝ) ℝ)
    (hs : Pos2 s) :
    Pos2 (sweepWith order na
      (angle2 (mesh2 (sc2 Real.exp) mu eta dx dy sigt nx) src w nx ny up bup) s) := by
  apply sweep2_pos _ _ _ _ _ _ _ _ hb _ hw _ _ hs
  intro o ho a ha i hi j hj p hp1 hp2
  have hc := Detran.Mesh.idx_row_lt hi hj
  exact C27_sc2_cell _ _ _ _ _ _ _ (hmu a ha).1 (hmu a ha).2 (hdx i hi) (hdy j hj) (hst _ hc)
    (hsrc o ho a ha _ hc) hp1 hp2

/-- The 1-D step-characteristic outgoing flux is the exact solution of
    `mu dψ/dx + sigt ψ = s` at the far edge: the value of the exponential profile that starts at
    the incident flux. -/
theorem C27_sc1_exact (mu dx sigt s p : ℝ) (hmu : 0 < mu) (hs : 0 < sigt) :
    ∃ ψ : ℝ → ℝ, ψ 0 = p ∧ ψ dx = (sc1 Real.exp mu dx sigt s p).2 ∧
      ∀ x, HasDerivAt ψ ((s - sigt * ψ x) / mu) x := by
  refine ⟨fun x => s / sigt + (p - s / sigt) * Real.exp (-(sigt * x / mu)), ?_, ?_, ?_⟩
  · simp
  · simp only [sc1]
    field_simp
    ring
  · intro x
    have h1 : HasDerivAt (fun x : ℝ => -(sigt * x / mu)) (-(sigt / mu)) x := by
      have := (hasDerivAt_id x).const_mul (-(sigt / mu))
      simp only [mul_one] at this
      refine this.congr_of_eventuallyEq (Filter.Eventually.of_forall fun y => ?_)
      simp only [id]; ring
    have h2 := (h1.exp.const_mul (p - s / sigt)).const_add (s / sigt)
    refine h2.congr_deriv ?_
    have := hs.ne'
    have := hmu.ne'
    field_simp
    ring

example : (sc1 Real.exp 1 0 1 0 5).2 = 5 := by simp [sc1]

end sc

end Detran.Sweep
