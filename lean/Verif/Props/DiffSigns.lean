import Verif.Props.Infinite

/-!
# Signs, comparison and bounds of the diffusion solution (C132)
-/

namespace Detran.Diffusion

open Detran.Matrix Finset
variable {K : Type} [Field K] [LinearOrder K] [IsStrictOrderedRing K]

/-- Nothing negative is given: neither in the cells nor at the sides. -/
structure FixedSrc.NonNeg (S : FixedSrc K) : Prop where
  given : ∀ g < S.L.mat.G, ∀ c < S.L.M.size, 0 ≤ S.given g c
  sides : ∀ leak < 2 * S.L.M.dim, ∀ g < S.L.mat.G, ∀ i j, 0 ≤ S.jin leak g i j

theorem in_active {S : FixedSrc K} (ok : S.OK) {g : Nat} : g ∈ S.L.active ↔ g < S.L.mat.G := by
  rw [ok.active, mem_range]

/-- What a boundary face takes out of a cell, and what comes in there. -/
theorem face_both (S : FixedSrc K) (ok : S.OK) (hp : S.L.Pos) (g c : Nat) {leak : Nat} (hl : leak < 6)
    (hb : S.L.M.onBoundary c leak = true) (a : K) :
    let inn := if leak < 2 * S.L.M.dim then (if S.L.M.onBoundary c leak then 8 * S.L.dc g c * S.jinAt g c leak /
      ((4 * S.L.dc g c + S.L.M.width c (leak / 2)) * S.L.M.width c (leak / 2)) else 0) else 0
    (S.L.dtilde g c leak * a / S.L.M.width c (leak / 2) = 0 ∧ inn = 0) ∨
    (leak < 2 * S.L.M.dim ∧ S.L.al leak = 0 ∧ ∃ k > 0, S.L.dtilde g c leak * a / S.L.M.width c (leak / 2) = k * a ∧
      inn = k * (4 * S.jinAt g c leak)) := by
  intro inn
  have hw : 0 < S.L.M.width c (leak / 2) := hp.h _ _
  have hd : 0 < S.L.dc g c := hp.dc _ _
  by_cases h2 : leak < 2 * S.L.M.dim
  · rcases ok.side leak h2 with ha | ⟨ha, hj⟩
    · refine Or.inr ⟨h2, ha, 2 * S.L.dc g c / ((4 * S.L.dc g c + S.L.M.width c (leak / 2)) * S.L.M.width c (leak / 2)),
        by positivity, ?_, ?_⟩
      · simp only [Loss.dtilde, hb, dBoundary, ha, if_true]
        field_simp
        ring
      · simp only [inn, if_pos h2, hb, if_true]
        ring
    · have e : S.jinAt g c leak = 0 := hj _ _ _
      exact Or.inl ⟨by simp [Loss.dtilde, hb, dBoundary, ha], by simp [inn, e]⟩
  · exact Or.inl ⟨by simp [Loss.dtilde, hb, dBoundary, ok.flat leak (by omega) hl], by simp [inn, h2]⟩

theorem sum_sides6 (S : FixedSrc K) (ok : S.OK) (f : Nat → K) : ∑ leak ∈ range (2 * S.L.M.dim), f leak
    = ∑ leak ∈ range 6, if leak < 2 * S.L.M.dim then f leak else 0 := by
  rw [← Finset.sum_filter (s := range 6) (fun leak => leak < 2 * S.L.M.dim)]
  refine Finset.sum_congr ?_ fun _ _ => rfl
  have := ok.op.grid.dim_le
  ext l
  simp only [mem_range, mem_filter]
  omega

section
variable (S : FixedSrc K) (ok : S.OK) (hp : S.L.Pos) (srt : List (Trip K) → List (Trip K)) (hs : IsSort srt)
  (C : CSR K) (bs : List Bool) (hC : S.L.sys.make srt = .ok (some C, bs))
include ok hp hs hC

/-- Nothing negative given, no negative flux. -/
theorem C132_diffusion_positive {u : Nat → K} (hW : S.L.Weak u) (h : S.NonNeg) (x : Nat → K)
    (hx : ∀ p < S.L.mat.G * S.L.M.size, C.multiply x p = S.rhs p) {g c : Nat} (hg : g < S.L.mat.G) (hc : c < S.L.M.size) :
    0 ≤ x (c + g * S.L.M.size) := by
  have h1 := (solves_iff S ok srt hs C bs hC x).1 hx
  have := lhs_nonneg S.L hp hW x (fun g hg c hc => by
    have hg := (in_active ok).1 hg
    rw [h1 g hg c hc, C101_source S ok.op.grid.dim_le hg hc]
    refine add_nonneg (h.given g hg c hc) (sum_nonneg fun leak hl => ?_)
    split
    · have hw : 0 < S.L.M.width c (leak / 2) := hp.h _ _
      have hd : 0 < S.L.dc g c := hp.dc _ _
      have hj : 0 ≤ S.jinAt g c leak := h.sides leak (mem_range.1 hl) g hg _ _
      positivity
    · exact le_rfl) g ((in_active ok).2 hg) c hc
  rwa [ok.pos] at this

/-- No negative current comes out at a side where none was sent in. -/
theorem C132_diffusion_out_partial {u : Nat → K} (hW : S.L.Weak u) (h : S.NonNeg) (x : Nat → K)
    (hx : ∀ p < S.L.mat.G * S.L.M.size, C.multiply x p = S.rhs p) {g c leak : Nat} (hg : g < S.L.mat.G)
    (hc : c < S.L.M.size) (hl : leak < 6) (hb : S.L.M.onBoundary c leak = true) (h0 : S.jinAt g c leak = 0) :
    0 ≤ S.joutAt x g c leak := by
  rw [joutAt_eq S x hc hl hb, h0, mul_zero, add_zero]
  have hw : 0 < S.L.M.width c (leak / 2) := hp.h _ _
  have hd : 0 < S.L.dc g c := hp.dc _ _
  have := C132_diffusion_positive S ok hp srt hs C bs hC hW h x hx hg hc
  positivity

/-- There is one solution. -/
theorem C132_diffusion_one {u : Nat → K} (hW : S.L.Weak u) :
    ∃ x : Nat → K, (∀ p < S.L.mat.G * S.L.M.size, C.multiply x p = S.rhs p) ∧
      ∀ y : Nat → K, (∀ p < S.L.mat.G * S.L.M.size, C.multiply y p = S.rhs p) → ∀ p < S.L.mat.G * S.L.M.size, y p = x p := by
  have split : ∀ p < S.L.mat.G * S.L.M.size, p / S.L.M.size < S.L.mat.G ∧ p % S.L.M.size < S.L.M.size ∧
      p % S.L.M.size + p / S.L.M.size * S.L.M.size = p := fun p hlt => by
    have hn : 0 < S.L.M.size := Nat.pos_of_ne_zero fun h => by simp [h] at hlt
    exact ⟨(Nat.div_lt_iff_lt_mul hn).2 hlt, Nat.mod_lt p hn, Nat.mod_add_div' p _⟩
  have glue : ∀ g < S.L.mat.G, ∀ c < S.L.M.size, c + g * S.L.M.size < S.L.mat.G * S.L.M.size := fun g hg c hc =>
    calc c + g * S.L.M.size < (g + 1) * S.L.M.size := by rw [Nat.add_mul]; omega
      _ ≤ S.L.mat.G * S.L.M.size := Nat.mul_le_mul_right _ hg
  have only : ∀ x y : Nat → K, (∀ g < S.L.mat.G, ∀ c < S.L.M.size, S.L.lhs x g c = S.L.lhs y g c) →
      ∀ p < S.L.mat.G * S.L.M.size, x p = y p := by
    intro x y h p hlt
    obtain ⟨a, b, e⟩ := split p hlt
    have k1 := lhs_mono S.L hp hW x y (fun g hg c hc => (h g ((in_active ok).1 hg) c hc).le) _ ((in_active ok).2 a) _ b
    have k2 := lhs_mono S.L hp hW y x (fun g hg c hc => (h g ((in_active ok).1 hg) c hc).ge) _ ((in_active ok).2 a) _ b
    rw [ok.pos, e] at k1 k2
    exact le_antisymm k1 k2
  let ext : (Fin (S.L.mat.G * S.L.M.size) → K) → Nat → K := fun v p => if h : p < S.L.mat.G * S.L.M.size then v ⟨p, h⟩ else 0
  have lin0 : ∀ g c, S.L.lhs (fun _ => 0) g c = 0 := fun g c => by
    have := lhs_sub S.L (fun _ => 0) (fun _ => 0) g c
    simpa using this
  have lins : ∀ (a : K) x g c, S.L.lhs (fun p => a * x p) g c = a * S.L.lhs x g c := fun a x g c => by
    unfold Loss.lhs
    rw [local_eq, local_eq, mul_add, mul_sum]
    congr 1
    · refine sum_congr rfl fun leak _ => ?_
      unfold Loss.faceTerm
      split <;> ring
    · rw [mul_sub, mul_sum]
      congr 1
      · ring
      · exact sum_congr rfl fun _ _ => by ring
  let T : (Fin (S.L.mat.G * S.L.M.size) → K) →ₗ[K] (Fin (S.L.mat.G * S.L.M.size) → K) :=
    { toFun := fun v p => S.L.lhs (ext v) (p / S.L.M.size) (p % S.L.M.size)
      map_add' := by
        intro v y
        funext p
        have e : ext (v + y) = fun p => ext v p - (-1) * ext y p := by
          funext p
          by_cases hlt : p < S.L.mat.G * S.L.M.size <;> simp [ext, hlt]
        show S.L.lhs (ext (v + y)) _ _ = S.L.lhs (ext v) _ _ + S.L.lhs (ext y) _ _
        rw [e, lhs_sub, lins]
        ring
      map_smul' := by
        intro a v
        funext p
        have e : ext (a • v) = fun p => a * ext v p := by
          funext p
          by_cases hlt : p < S.L.mat.G * S.L.M.size <;> simp [ext, hlt]
        show S.L.lhs (ext (a • v)) _ _ = a * S.L.lhs (ext v) _ _
        rw [e, lins] }
  have inj : Function.Injective T := by
    intro v y hvy
    funext p
    have := only (ext v) (ext y) (fun g hg c hc => by
      have h := congrFun hvy ⟨c + g * S.L.M.size, glue g hg c hc⟩
      have hn : 0 < S.L.M.size := by omega
      change S.L.lhs (ext v) ((c + g * S.L.M.size) / _) ((c + g * S.L.M.size) % _) =
        S.L.lhs (ext y) ((c + g * S.L.M.size) / _) ((c + g * S.L.M.size) % _) at h
      rwa [Nat.add_mul_div_right _ _ hn, Nat.div_eq_of_lt hc, Nat.zero_add, Nat.add_mul_mod_self_right,
        Nat.mod_eq_of_lt hc] at h) p p.2
    simpa [ext, p.2] using this
  obtain ⟨v, hv⟩ := LinearMap.injective_iff_surjective.1 inj fun p => S.rhs p
  have hx : ∀ g < S.L.mat.G, ∀ c < S.L.M.size, S.L.lhs (ext v) g c = S.rhs (c + g * S.L.M.size) := fun g hg c hc => by
    have h := congrFun hv ⟨c + g * S.L.M.size, glue g hg c hc⟩
    have hn : 0 < S.L.M.size := by omega
    change S.L.lhs (ext v) ((c + g * S.L.M.size) / _) ((c + g * S.L.M.size) % _) = S.rhs (c + g * S.L.M.size) at h
    rwa [Nat.add_mul_div_right _ _ hn, Nat.div_eq_of_lt hc, Nat.zero_add, Nat.add_mul_mod_self_right,
      Nat.mod_eq_of_lt hc] at h
  refine ⟨ext v, (solves_iff S ok srt hs C bs hC _).2 hx, fun y hy => only _ _ fun g hg c hc => ?_⟩
  rw [hx g hg c hc]
  exact (solves_iff S ok srt hs C bs hC y).1 hy g hg c hc

/-- Flat fluxes that lose, in every cell, no more than is given there and comes in from the groups, and whose isotropic
    current is no more than the one given at each open side, lie below the solution. -/
theorem C132_diffusion_floor {u : Nat → K} (hW : S.L.Weak u) (v : Nat → K)
    (hv : ∀ g < S.L.mat.G, ∀ c < S.L.M.size,
      S.L.mat.sigT g (S.L.mmap c) * v g ≤ S.given g c + ∑ gp ∈ range S.L.mat.G, S.L.inXs g gp c * v gp)
    (ho : ∀ leak < 2 * S.L.M.dim, S.L.al leak = 0 → ∀ g < S.L.mat.G, ∀ i j, v g / 4 ≤ S.jin leak g i j) (x : Nat → K)
    (hx : ∀ p < S.L.mat.G * S.L.M.size, C.multiply x p = S.rhs p) {g c : Nat} (hg : g < S.L.mat.G) (hcl : c < S.L.M.size) :
    v g ≤ x (c + g * S.L.M.size) := by
  have h1 := (solves_iff S ok srt hs C bs hC x).1 hx
  have hn : 0 < S.L.M.size := by omega
  have := lhs_mono S.L hp hW (fun p => v (p / S.L.M.size)) x (fun g hg c hcl => by
    have hg' := (in_active ok).1 hg
    rw [h1 g hg' c hcl, lhs_flat S.L v _ (fun g _ c hc => by
      rw [ok.pos, Nat.add_mul_div_right _ _ hn, Nat.div_eq_of_lt hc, Nat.zero_add]) hg hcl,
      C101_source S ok.op.grid.dim_le hg' hcl, ok.active, sum_sides6 S ok, add_comm (S.given g c)]
    refine add_le_add (sum_le_sum fun leak hl => ?_) (by linarith [hv g hg' c hcl])
    have hl := mem_range.1 hl
    by_cases hb : S.L.M.onBoundary c leak = true
    · rw [if_pos hb]
      rcases face_both S ok hp g c hl hb (v g) with ⟨e1, e2⟩ | ⟨h2, ha, k, hk, e1, e2⟩
      · rw [e1, e2]
      · rw [e1, e2]
        exact mul_le_mul_of_nonneg_left (by have : v g / 4 ≤ S.jinAt g c leak := ho leak h2 ha g hg' _ _; linarith) hk.le
    · rw [if_neg hb, if_neg hb, ite_self]) g ((in_active ok).2 hg) c hcl
  rwa [ok.pos, Nat.add_mul_div_right _ _ hn, Nat.div_eq_of_lt hcl, Nat.zero_add] at this

/-- Flat fluxes that lose no less, and whose current is no less than the given ones, lie above it. -/
theorem C132_diffusion_ceiling {u : Nat → K} (hW : S.L.Weak u) (v : Nat → K)
    (hv : ∀ g < S.L.mat.G, ∀ c < S.L.M.size,
      S.given g c + ∑ gp ∈ range S.L.mat.G, S.L.inXs g gp c * v gp ≤ S.L.mat.sigT g (S.L.mmap c) * v g)
    (ho : ∀ leak < 2 * S.L.M.dim, S.L.al leak = 0 → ∀ g < S.L.mat.G, ∀ i j, S.jin leak g i j ≤ v g / 4) (x : Nat → K)
    (hx : ∀ p < S.L.mat.G * S.L.M.size, C.multiply x p = S.rhs p) {g c : Nat} (hg : g < S.L.mat.G) (hcl : c < S.L.M.size) :
    x (c + g * S.L.M.size) ≤ v g := by
  have h1 := (solves_iff S ok srt hs C bs hC x).1 hx
  have hn : 0 < S.L.M.size := by omega
  have := lhs_mono S.L hp hW x (fun p => v (p / S.L.M.size)) (fun g hg c hcl => by
    have hg' := (in_active ok).1 hg
    rw [h1 g hg' c hcl, lhs_flat S.L v _ (fun g _ c hc => by
      rw [ok.pos, Nat.add_mul_div_right _ _ hn, Nat.div_eq_of_lt hc, Nat.zero_add]) hg hcl,
      C101_source S ok.op.grid.dim_le hg' hcl, ok.active, sum_sides6 S ok, add_comm (S.given g c)]
    refine add_le_add (sum_le_sum fun leak hl => ?_) (by linarith [hv g hg' c hcl])
    have hl := mem_range.1 hl
    by_cases hb : S.L.M.onBoundary c leak = true
    · rcases face_both S ok hp g c hl hb (v g) with ⟨e1, e2⟩ | ⟨h2, ha, k, hk, e1, e2⟩
      · rw [e1, e2, if_pos hb]
      · rw [e1, e2, if_pos hb]
        exact mul_le_mul_of_nonneg_left (by have : S.jinAt g c leak ≤ v g / 4 := ho leak h2 ha g hg' _ _; linarith) hk.le
    · rw [if_neg hb, if_neg hb, ite_self]) g ((in_active ok).2 hg) c hcl
  rwa [ok.pos, Nat.add_mul_div_right _ _ hn, Nat.div_eq_of_lt hcl, Nat.zero_add] at this
end

/-- Less leaves through a face with a higher albedo. -/
theorem dBoundary_anti {d a b h : K} (hd : 0 < d) (hh : 0 < h) (ha : -1 ≤ a) (hab : a ≤ b) (hb : b ≤ 1) :
    dBoundary d b h ≤ dBoundary d a h := by
  have den : ∀ t : K, -1 ≤ t → t ≤ 1 → 0 < 4 * d * (1 + t) + (1 - t) * h := by
    intro t h1 h2
    rcases h2.lt_or_eq with hlt | rfl
    · have e1 : 0 ≤ 4 * d * (1 + t) := mul_nonneg (by positivity) (by linarith)
      have e2 : 0 < (1 - t) * h := mul_pos (by linarith) hh
      linarith
    · have : 0 < d * 8 := by positivity
      linarith
  have d1 := den a ha (hab.trans hb)
  have d2 := den b (ha.trans hab) hb
  unfold dBoundary
  rw [div_le_div_iff₀ d2 d1]
  have key : 2 * d * (1 - a) * (4 * d * (1 + b) + (1 - b) * h) - 2 * d * (1 - b) * (4 * d * (1 + a) + (1 - a) * h) =
      16 * (d * d) * (b - a) := by ring
  have : 0 ≤ 16 * (d * d) * (b - a) := mul_nonneg (by positivity) (by linarith)
  linarith

/-- With higher albedos the left hand side of a flux without negative values is lower. -/
theorem lhs_albedo (D : Loss K) (hp : D.Pos) (al : Nat → K) (h1 : ∀ s, D.al s ≤ al s) (h2 : ∀ s, al s ≤ 1) (x : Nat → K)
    (hx : ∀ g ∈ D.active, ∀ c < D.M.size, 0 ≤ x (D.pos g c)) {g c : Nat} (hg : g ∈ D.active) (hc : c < D.M.size) :
    ({ D with al := al } : Loss K).lhs x g c ≤ D.lhs x g c := by
  refine add_le_add (sum_le_sum fun leak _ => ?_) le_rfl
  have hw : 0 < D.M.width c (leak / 2) := hp.h _ _
  have e : D.faceTerm g (fun c => x (D.pos g c)) c leak -
      ({ D with al := al } : Loss K).faceTerm g (fun c => x (D.pos g c)) c leak =
      if D.M.onBoundary c leak then (dBoundary (D.dc g c) (D.al leak) (D.M.width c (leak / 2)) -
        dBoundary (D.dc g c) (al leak) (D.M.width c (leak / 2))) * x (D.pos g c) else 0 := by
    unfold Loss.faceTerm Loss.dtilde
    by_cases hb : D.M.onBoundary c leak = true
    · simp only [hb, if_true]
      ring_nf
      rfl
    · simp only [hb]
      exact sub_self _
  have h3 : 0 ≤ D.faceTerm g (fun c => x (D.pos g c)) c leak -
      ({ D with al := al } : Loss K).faceTerm g (fun c => x (D.pos g c)) c leak := by
    rw [e]
    split
    · exact mul_nonneg (sub_nonneg.2 (dBoundary_anti (hp.dc _ _) hw (hp.al _).1 (h1 _) (h2 _))) (hx g hg c hc)
    · exact le_rfl
  exact div_le_div_of_nonneg_right (sub_nonneg.1 h3) hw.le

/-- More given in the cells, more sent in at the sides, or open sides made reflecting: nowhere less flux. -/
theorem C132_diffusion_more (S S' : FixedSrc K) (ok : S.OK) (ok' : S'.OK) (hp : S.L.Pos) {u : Nat → K} (hW : S.L.Weak u)
    (hL : S'.L = { S.L with al := S'.L.al }) (hal : ∀ s, S.L.al s ≤ S'.L.al s) (hal1 : ∀ s, S'.L.al s ≤ 1) (h : S.NonNeg)
    (hq : ∀ g < S.L.mat.G, ∀ c < S.L.M.size, S.given g c ≤ S'.given g c)
    (hj : ∀ leak < 2 * S.L.M.dim, ∀ g < S.L.mat.G, ∀ i j, S.jin leak g i j ≤ S'.jin leak g i j)
    (srt : List (Trip K) → List (Trip K)) (hs : IsSort srt) (C C' : CSR K) (bs bs' : List Bool)
    (hC : S.L.sys.make srt = .ok (some C, bs)) (hC' : S'.L.sys.make srt = .ok (some C', bs')) (x x' : Nat → K)
    (hx : ∀ p < S.L.mat.G * S.L.M.size, C.multiply x p = S.rhs p)
    (hx' : ∀ p < S.L.mat.G * S.L.M.size, C'.multiply x' p = S'.rhs p) {g c : Nat} (hg : g < S.L.mat.G) (hc : c < S.L.M.size) :
    x (c + g * S.L.M.size) ≤ x' (c + g * S.L.M.size) := by
  have hM : S'.L.M = S.L.M := by rw [hL]
  have hm : S'.L.mat = S.L.mat := by rw [hL]
  have hmm : S'.L.mmap = S.L.mmap := by rw [hL]
  have hac : S'.L.active = S.L.active := by rw [hL]; rfl
  have hpo : ∀ g c, S'.L.pos g c = S.L.pos g c := by rw [hL]; intro g c; rfl
  have hp' : S'.L.Pos := ⟨by rw [hM]; exact hp.h, by rw [hm]; exact hp.dc, fun s => ⟨(hp.al s).1.trans (hal s), hal1 s⟩⟩
  have hW' : S'.L.Weak u := by
    rw [hL]
    exact ⟨hW.upos, hW.nn, hW.row⟩
  have h1 := (solves_iff S ok srt hs C bs hC x).1 hx
  have h2 := (solves_iff S' ok' srt hs C' bs' hC' x').1 (by rw [hm, hM]; exact hx')
  have h0 : ∀ g ∈ S.L.active, ∀ c < S.L.M.size, 0 ≤ x (S.L.pos g c) := fun g hg c hc => by
    rw [ok.pos]
    exact C132_diffusion_positive S ok hp srt hs C bs hC hW h x hx ((in_active ok).1 hg) hc
  have := lhs_mono S'.L hp' hW' x x' (fun g hg c hc => by
    have hg0 : g ∈ S.L.active := hac ▸ hg
    have hg' := (in_active ok).1 hg0
    have hc' : c < S.L.M.size := hM ▸ hc
    rw [h2 g (by rw [hm]; exact hg') c hc]
    have e : S'.L.lhs x g c ≤ S.L.lhs x g c := by
      rw [hL]
      exact lhs_albedo S.L hp _ hal hal1 x h0 hg0 hc'
    refine e.trans ?_
    rw [h1 g hg' c hc', C101_source S ok.op.grid.dim_le hg' hc', C101_source S' ok'.op.grid.dim_le (by rw [hm]; exact hg') hc, hM]
    refine add_le_add (hq g hg' c hc') (sum_le_sum fun leak hl => ?_)
    split
    · have hw : 0 < S.L.M.width c (leak / 2) := hp.h _ _
      have hd : 0 < S.L.dc g c := hp.dc _ _
      have e1 : S'.L.dc g c = S.L.dc g c := by unfold Loss.dc; rw [hm, hmm]
      have e2 : S.jinAt g c leak ≤ S'.jinAt g c leak := by
        unfold FixedSrc.jinAt
        rw [hM]
        exact hj leak (mem_range.1 hl) g hg' _ _
      rw [e1]
      refine div_le_div_of_nonneg_right (mul_le_mul_of_nonneg_left e2 (by positivity)) (by positivity)
    · exact le_rfl) g (by rw [hac]; exact (in_active ok).2 hg) c (by rw [hM]; exact hc)
  rwa [hpo, ok.pos] at this

/-! ## Cases -/

theorem flatSrc_given : ∀ g < 2, ∀ c < 6, flatSrc.given g c = 2 := by decide +kernel

theorem flatSrc_nonneg : flatSrc.NonNeg where
  given := fun g hg c hc => by rw [flatSrc_given g hg c hc]; norm_num
  sides := fun leak _ g _ _ _ => by
    show (0 : ℚ) ≤ if leak = 0 then 0 else if g = 0 then 1 else 3 / 2
    split_ifs <;> norm_num

/-- The problem of six cells: no negative flux, one solution, and it lies between 2 and 10 in every cell. -/
example (srt : List (Trip ℚ) → List (Trip ℚ)) (hs : IsSort srt) (C : CSR ℚ) (bs : List Bool)
    (hC : flatSrc.L.sys.make srt = .ok (some C, bs)) :
    ∃ x : Nat → ℚ, (∀ p < 12, C.multiply x p = flatSrc.rhs p) ∧ ∀ g < 2, ∀ c < 6, 0 ≤ x (c + g * 6) ∧
      2 ≤ x (c + g * 6) ∧ x (c + g * 6) ≤ 10 := by
  obtain ⟨x, hx, -⟩ := C132_diffusion_one flatSrc flatSrc_ok flatSrc_pos srt hs C bs hC flatSrc_weak
  refine ⟨x, hx, fun g hg c hc => ⟨?_, ?_, ?_⟩⟩
  · exact C132_diffusion_positive flatSrc flatSrc_ok flatSrc_pos srt hs C bs hC flatSrc_weak flatSrc_nonneg x hx hg hc
  · refine C132_diffusion_floor flatSrc flatSrc_ok flatSrc_pos srt hs C bs hC flatSrc_weak (fun _ => 2) ?_ ?_ x hx hg hc
    · have : ∀ g < 2, ∀ c < 6, flatSrc.L.mat.sigT g (flatSrc.L.mmap c) * 2 ≤ flatSrc.given g c +
        ∑ gp ∈ range 2, flatSrc.L.inXs g gp c * 2 := by decide +kernel
      exact this
    · intro leak hl ha g _ i j
      have h0 : leak ≠ 0 := fun h => by subst h; exact absurd ha (by decide)
      show (2 : ℚ) / 4 ≤ if leak = 0 then 0 else if g = 0 then 1 else 3 / 2
      rw [if_neg h0]
      split_ifs <;> norm_num
  · refine C132_diffusion_ceiling flatSrc flatSrc_ok flatSrc_pos srt hs C bs hC flatSrc_weak (fun _ => 10) ?_ ?_ x hx hg hc
    · have : ∀ g < 2, ∀ c < 6, flatSrc.given g c + ∑ gp ∈ range 2, flatSrc.L.inXs g gp c * 10 ≤
        flatSrc.L.mat.sigT g (flatSrc.L.mmap c) * 10 := by decide +kernel
      exact this
    · intro leak hl ha g _ i j
      show (if leak = 0 then 0 else if g = 0 then 1 else 3 / 2 : ℚ) ≤ 10 / 4
      split_ifs <;> norm_num

/-- Pure absorber of one unit cell, cross section 1/3 and diffusion coefficient 1; a unit current is sent in on the left. -/
def thinSrc : FixedSrc ℚ where
  L := ⟨⟨1, 1, 1, 1, fun _ _ => 1⟩, ({ (Material.Mat.new 1 1 : Material.Mat ℚ) with
    sigT := fun _ _ => 1 / 3, diff := fun _ _ => 1 } : Material.Mat ℚ).finalize, fun _ => 0, fun s => if s < 2 then 0 else 1, false, 0,
    false, 0, 1⟩
  ext := []
  fsrc := none
  jin := fun s _ _ _ => if s = 0 then 1 else 0

theorem thinSrc_ok : thinSrc.OK := by
  refine ⟨⟨⟨show 1 ≤ 3 by decide, ?_⟩, ⟨_, rfl⟩, ?_, ?_, ?_⟩, ?_, ?_, ?_⟩
  · intro a h1 h2
    have h1 : 1 ≤ a := h1
    interval_cases a <;> rfl
  · exact fun _ _ _ => le_refl (0 : ℚ)
  · intro c _
    show 0 < 1
    decide
  · decide
  · decide
  · intro leak hl
    exact Or.inl (if_pos hl)
  · intro leak hl _
    exact if_neg (Nat.not_lt.2 hl)

theorem thinSrc_pos : thinSrc.L.Pos := by
  refine ⟨fun _ _ => one_pos, fun _ _ => one_pos, fun s => ?_⟩
  show (-1 : ℚ) ≤ (if s < 2 then 0 else 1) ∧ (if s < 2 then 0 else 1) ≤ (1 : ℚ)
  split <;> norm_num

theorem thinSrc_weak : thinSrc.L.Weak fun _ => 1 := by
  have ha : thinSrc.L.active = range 1 := thinSrc_ok.active
  refine ⟨fun _ _ => one_pos, ?_, ?_⟩ <;> rw [ha]
  · have : ∀ g ∈ range 1, ∀ gp ∈ range 1, ∀ c < 1, 0 ≤ thinSrc.L.inXs g gp c := by decide +kernel
    exact this
  · have : ∀ g ∈ range 1, ∀ c < 1, ∑ gp ∈ range 1, thinSrc.L.inXs g gp c * 1 < thinSrc.L.mat.sigT g (thinSrc.L.mmap c) * 1 := by
      decide +kernel
    exact this

theorem thinSrc_nonneg : thinSrc.NonNeg where
  given := by
    have : ∀ g < 1, ∀ c < 1, 0 ≤ thinSrc.given g c := by decide +kernel
    exact this
  sides := fun leak _ _ _ _ _ => by
    show (0 : ℚ) ≤ if leak = 0 then 1 else 0
    split_ifs <;> norm_num

/-- Full statement for the currents: if nothing negative is given, no negative current is stored for a side. -/
def C132CurrentClaim : Prop := ∀ (S : FixedSrc ℚ) (u : Nat → ℚ), S.OK → S.L.Pos → S.L.Weak u → S.NonNeg →
  ∀ (srt : List (Trip ℚ) → List (Trip ℚ)), IsSort srt → ∀ (C : CSR ℚ) (bs : List Bool),
  S.L.sys.make srt = .ok (some C, bs) → ∀ x : Nat → ℚ, (∀ p < S.L.mat.G * S.L.M.size, C.multiply x p = S.rhs p) →
  ∀ g < S.L.mat.G, ∀ c < S.L.M.size, ∀ leak < 2 * S.L.M.dim, S.L.M.onBoundary c leak = true → 0 ≤ S.joutAt x g c leak

/-- The absorber's flux is `24/17`, and the current stored as coming back out on the left is `-3/85`. -/
theorem C132_current_fails : ¬ C132CurrentClaim := by
  intro h
  have hs : IsSort (insSort : List (Trip ℚ) → List (Trip ℚ)) := insSort_isSort
  generalize insSort = srt at hs
  obtain ⟨C, hC, _⟩ := rows thinSrc.L thinSrc_ok.op srt hs
  obtain ⟨x, hx, _⟩ := C132_diffusion_one thinSrc thinSrc_ok thinSrc_pos srt hs C _ hC thinSrc_weak
  have := h thinSrc _ thinSrc_ok thinSrc_pos thinSrc_weak thinSrc_nonneg srt hs C _ hC x hx 0 (by decide) 0 (by decide) 0
    (by decide) (by decide)
  have e := (solves_iff thinSrc thinSrc_ok srt hs C _ hC x).1 hx 0 (by decide) 0 (by decide)
  have hr : thinSrc.rhs (0 + 0 * thinSrc.L.M.size) = 8 / 5 := by decide +kernel
  have e2 := lhs_flat thinSrc.L (fun _ => x 0) x (fun g hg c hc => by
    have h1 : g < 1 := (in_active thinSrc_ok).1 hg
    have h2 : c < 1 := hc
    rw [thinSrc_ok.pos, show c = 0 by omega, show g = 0 by omega]
    simp) (g := 0) (c := 0) ((in_active thinSrc_ok).2 (by decide)) (by decide)
  rw [e, hr, thinSrc_ok.active] at e2
  have k1 : ∀ leak < 6, (if thinSrc.L.M.onBoundary 0 leak then thinSrc.L.dtilde 0 0 leak / thinSrc.L.M.width 0 (leak / 2) else 0)
    = if leak < 2 then 2 / 5 else 0 := by decide +kernel
  have k2 : thinSrc.L.mat.sigT 0 (thinSrc.L.mmap 0) = 1 / 3 := by decide +kernel
  have k3 : thinSrc.L.inXs 0 0 0 = 0 := by decide +kernel
  have k4 : ∀ leak ∈ range 6, (if thinSrc.L.M.onBoundary 0 leak then thinSrc.L.dtilde 0 0 leak * x 0 / thinSrc.L.M.width 0 (leak / 2)
      else 0) = (if leak < 2 then 2 / 5 else 0) * x 0 := fun leak hl => by
    rw [← k1 leak (mem_range.1 hl)]
    split <;> ring
  rw [sum_congr rfl k4, k2] at e2
  have hG : thinSrc.L.mat.G = 1 := rfl
  rw [hG] at e2
  simp only [sum_range_succ, sum_range_zero, k3] at e2
  norm_num at e2
  have ex : x 0 = 24 / 17 := by linarith
  rw [joutAt_eq thinSrc x (by decide) (by decide) (by decide)] at this
  have j1 : thinSrc.L.dc 0 0 = 1 := by decide +kernel
  have j2 : thinSrc.L.M.width 0 (0 / 2) = 1 := by decide +kernel
  have j3 : thinSrc.jinAt 0 0 0 = 1 := by decide +kernel
  rw [j1, j2, j3, show 0 + 0 * thinSrc.L.M.size = 0 by decide, ex] at this
  norm_num at this

end Detran.Diffusion
