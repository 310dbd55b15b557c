import Verif.Lemmas.Lattice
import Mathlib.Analysis.Real.Pi.Bounds
import Mathlib.Tactic.NormNum
import Mathlib.Data.Rat.Floor
import Mathlib.Data.Real.Archimedean

/-! # Properties of pin cells, assemblies and cores (C37, C61) -/

namespace Detran.Lattice

open Detran.Mesh

section
variable {K : Type} [Field K]

/-! ## C37 -/

/-- Square components of equal size `n` with complete maps, and a complete `R × R` map of
    valid component numbers. -/
structure Fits (R n : Nat) (comps : List (Piece K)) (map : List Int) : Prop where
  nonempty : comps ≠ []
  square : ∀ c ∈ comps, c.nx = n ∧ c.ny = n ∧ c.dy.length = n
  maps : ∀ c ∈ comps, c.mat.length = n * n ∧ c.reg.length = n * n ∧ c.pins.length = n * n
  mapLen : map.length = R * R
  mapOk : ∀ m ∈ map, 0 ≤ m ∧ m.toNat < comps.length

/-- The component placed at position `(i,j)`. -/
def Placed (comps : List (Piece K)) (map : List Int) (R i j : Nat) (c : Piece K) : Prop :=
  ∃ m, map[i + j * R]? = some m ∧ comps[m.toNat]? = some c

theorem Fits.pick {R n : Nat} {comps : List (Piece K)} {map : List Int}
    (h : Fits R n comps map) (p : Nat) (hp : p < R * R) :
    ∃ c m, Lattice.pick comps map p = some c ∧ c ∈ comps ∧ map[p]? = some m ∧
      comps[m.toNat]? = some c := by
  have hp' : p < map.length := by rw [h.mapLen]; exact hp
  obtain ⟨h0, hlt⟩ := h.mapOk _ (List.getElem_mem hp')
  refine ⟨comps[map[p].toNat], map[p], ?_, List.getElem_mem _, by simp [hp'], by simp [hlt]⟩
  simp [Lattice.pick, List.getElem?_eq_getElem hp', not_lt.2 h0, List.getElem?_eq_getElem hlt]

theorem tile_of_fits {R n : Nat} {comps : List (Piece K)} {map : List Int}
    (h : Fits R n comps map) (val : Nat → Piece K → Nat → Option Int)
    (hv : ∀ p c k, c ∈ comps → k < n * n → (val p c k).isSome) :
    ∃ out, tile comps map R n n val = some out ∧ out.length = n * R * (n * R) ∧
      ∀ i j a b c, i < R → j < R → a < n → b < n → Placed comps map R i j c →
        out[(i * n + a) + (j * n + b) * (n * R)]? = val (i + j * R) c (a + b * n) := by
  classical
  let g : Nat → Nat → Int := fun p k =>
    ((Lattice.pick comps map p).bind fun c => val p c k).getD 0
  obtain ⟨out, ho, hl, hg⟩ := tile_spec comps map R n val g (by
    intro p hp
    obtain ⟨c, m, hc, hm, -, -⟩ := h.pick p hp
    refine ⟨c, hc, fun k hk => ?_⟩
    obtain ⟨v, hv⟩ := Option.isSome_iff_exists.1 (hv p c k hm hk)
    simp [g, hc, hv])
  refine ⟨out, ho, hl, ?_⟩
  rintro i j a b c hi hj ha hb ⟨m, hm, hc⟩
  obtain ⟨c', m', hc', hmem, hm', hcm'⟩ := h.pick (i + j * R) (idx_row_lt hi hj)
  have e1 : m' = m := by rw [hm] at hm'; exact (Option.some.inj hm').symm
  subst e1
  have e2 : c' = c := by rw [hc] at hcm'; exact (Option.some.inj hcm').symm
  subst e2
  rw [hg i j a b hi hj ha hb]
  obtain ⟨v, hv⟩ := Option.isSome_iff_exists.1 (hv (i + j * R) c' (a + b * n) hmem (idx_row_lt ha hb))
  simp [g, hc', hv]

theorem edges_of_fits {R n : Nat} {comps : List (Piece K)} {map : List Int}
    (h : Fits R n comps map) :
    ∃ (out : List K) (rows : List (List K)), tileEdges comps map R n n = some out ∧ out.length = n * R + 1 ∧
      rows.length = R ∧
      (∀ j r, rows[j]? = some r → ∃ c, Placed comps map R 0 j c ∧ r = c.dy) ∧
      ∀ j b r, rows[j]? = some r → b ≤ n →
        out[j * n + b]? = some (((rows.take j).map List.sum).sum + (r.take b).sum) := by
  classical
  let row : Nat → List K := fun j =>
    match Lattice.pick comps map (j * R) with
    | some c => c.dy
    | none => []
  have hrow : ∀ j, j < R → ∃ c, Lattice.pick comps map (j * R) = some c ∧ row j = c.dy ∧
      c.dy.length = n ∧ Placed comps map R 0 j c := by
    intro j hj
    obtain ⟨c, m, hc, hm, h1, h2⟩ := h.pick (j * R)
      (by have := idx_row_lt (show 0 < R by omega) hj; simpa using this)
    exact ⟨c, hc, by simp [row, hc], (h.square c hm).2.2, m, by simpa using h1, h2⟩
  let rows := (List.range R).map row
  have hlen : ∀ r ∈ rows, r.length = n := by
    intro r hr
    simp only [rows, List.mem_map, List.mem_range] at hr
    obtain ⟨j, hj, rfl⟩ := hr
    obtain ⟨c, -, e, hl, -⟩ := hrow j hj
    rw [e, hl]
  have hflat : ((List.range R).flatMap fun j => (List.range n).map fun t => do
      let c ← Lattice.pick comps map (j * R)
      c.dy[t]?) = rows.flatten.map some := by
    simp only [rows, List.flatMap, List.map_flatten, List.map_map]
    congr 1
    apply List.map_congr_left
    intro j hj
    obtain ⟨c, hc, e, hl, -⟩ := hrow j (List.mem_range.1 hj)
    simp only [Function.comp, e, hc]
    apply List.ext_getElem
    · simp [hl]
    · intro t h1 h2
      simp at h1 h2
      simp [List.getElem?_eq_getElem h2]
  have hfl : rows.flatten.length = n * R := by
    have : ∀ rs : List (List K), (∀ r ∈ rs, r.length = n) → rs.flatten.length = n * rs.length := by
      intro rs
      induction rs with
      | nil => simp
      | cons r rs ih =>
          intro hh
          rw [List.flatten_cons, List.length_append, hh r (by simp),
            ih (fun r hr => hh r (by simp [hr])), List.length_cons]; ring
    rw [this rows hlen]; simp [rows]
  obtain ⟨out, ho, hl, -, hs⟩ := edgeLoop_spec rows.flatten (List.replicate (n * R + 1) 0) 0
    (by rw [hfl]; simp)
  refine ⟨out, rows, ?_, by simpa using hl, by simp [rows], ?_, ?_⟩
  · rw [tileEdges, hflat, ho]
  · intro j r hr
    have hj : j < R := by
      have := (List.getElem?_eq_some_iff.1 hr).1; simpa [rows] using this
    obtain ⟨c, -, e, -, hp⟩ := hrow j hj
    refine ⟨c, hp, ?_⟩
    simp only [rows, List.getElem?_map, List.getElem?_range hj] at hr
    simpa [e] using hr.symm
  · intro j b r hr hb
    have hj : j < R := by
      have := (List.getElem?_eq_some_iff.1 hr).1; simpa [rows] using this
    have hb' : j * n + b ≤ rows.flatten.length := by
      rw [hfl]
      calc j * n + b ≤ j * n + n := by omega
        _ = n * (j + 1) := by ring
        _ ≤ n * R := Nat.mul_le_mul_left _ hj
    have := hs (j * n + b) hb'
    rw [Nat.zero_add] at this
    rw [this, take_flatten_sum n rows hlen j b r hr hb]
    simp

/-- C37 for square assemblies: the assembled maps restricted to each pin position are the
    pin's own maps, each pin position has its own number in the pin map, and the edges are
    the (first-column) pins' edges shifted by the pins below. -/
theorem C37_assembly_tiles_pins_partial {R n : Nat} {comps : List (Piece K)} {map : List Int}
    (h : Fits R n comps map) :
    ∃ (t : Tiled K) (rows : List (List K)), assembly R R comps map = .ok t ∧
      t.mat.length = n * R * (n * R) ∧ t.reg.length = n * R * (n * R) ∧
      t.pins.length = n * R * (n * R) ∧ t.edges.length = n * R + 1 ∧
      (∀ i j a b c, i < R → j < R → a < n → b < n → Placed comps map R i j c →
        t.mat[(i * n + a) + (j * n + b) * (n * R)]? = c.mat[a + b * n]? ∧
        t.reg[(i * n + a) + (j * n + b) * (n * R)]? = c.reg[a + b * n]? ∧
        t.pins[(i * n + a) + (j * n + b) * (n * R)]? = some ((i + j * R : Nat) : Int)) ∧
      rows.length = R ∧
      (∀ j r, rows[j]? = some r → ∃ c, Placed comps map R 0 j c ∧ r = c.dy) ∧
      (∀ j b r, rows[j]? = some r → b ≤ n →
        t.edges[j * n + b]? = some (((rows.take j).map List.sum).sum + (r.take b).sum)) := by
  have some_of : ∀ (l : List Int) k, l.length = n * n → k < n * n → (l[k]?).isSome := by
    intro l k hl hk; rw [List.getElem?_eq_getElem (by omega)]; rfl
  obtain ⟨m1, hm1, hl1, hg1⟩ := tile_of_fits h (fun _ c k => c.mat[k]?)
    (fun p c k hc hk => some_of _ k (h.maps c hc).1 hk)
  obtain ⟨m2, hm2, hl2, hg2⟩ := tile_of_fits h (fun _ c k => c.reg[k]?)
    (fun p c k hc hk => some_of _ k (h.maps c hc).2.1 hk)
  obtain ⟨m3, hm3, hl3, hg3⟩ := tile_of_fits h (fun p _ _ => some (p : Int))
    (fun _ _ _ _ _ => rfl)
  obtain ⟨e, rows, he, hle, hr, hrc, hre⟩ := edges_of_fits h
  refine ⟨⟨e, m1, m2, m3, []⟩, rows, ?_, hl1, hl2, hl3, hle, ?_, hr, hrc, hre⟩
  · match comps, h with
    | [], h => exact absurd rfl h.nonempty
    | p0 :: rest, h =>
        have hs := h.square p0 (by simp)
        have hany : rest.any (fun p => decide (p.nx ≠ p0.nx ∨ p.ny ≠ p0.ny)) = false := by
          rw [List.any_eq_false]
          intro p hp
          have := h.square p (by simp [hp])
          simp [this.1, this.2.1, hs.1, hs.2.1]
        have hR : Nat.sqrt map.length = R := by rw [h.mapLen, Nat.sqrt_eq]
        have hE : tileEdges (p0 :: rest) map R p0.nx p0.ny = some e := by
          rw [hs.1, hs.2.1]; exact he
        have h1 : tile (p0 :: rest) map R p0.nx p0.ny (fun _ c k => c.mat[k]?) = some m1 := by
          rw [hs.1, hs.2.1]; exact hm1
        have h2 : tile (p0 :: rest) map R p0.nx p0.ny (fun _ c k => c.reg[k]?) = some m2 := by
          rw [hs.1, hs.2.1]; exact hm2
        have h3 : tile (p0 :: rest) map R p0.nx p0.ny (fun p _ _ => some (p : Int)) = some m3 := by
          rw [hs.1, hs.2.1]; exact hm3
        simp only [assembly, hany, Bool.false_eq_true, if_false]
        rw [if_neg (by simp [h.mapLen])]
        simp only [hR, hE, h1, h2, h3]
        rfl
  · intro i j a b c hi hj ha hb hp
    exact ⟨hg1 i j a b c hi hj ha hb hp, hg2 i j a b c hi hj ha hb hp,
      hg3 i j a b c hi hj ha hb hp⟩

/-- C37 for cores: same, with the pin numbers of each assembly shifted by
    `pinDim²` per assembly and the assembly map holding the position number. -/
theorem C37_core_tiles_assemblies_partial {R n : Nat} (pinDim : Nat) {comps : List (Piece K)}
    {map : List Int} (h : Fits R n comps map) :
    ∃ (t : Tiled K) (rows : List (List K)), core R pinDim comps map = .ok t ∧
      t.mat.length = n * R * (n * R) ∧ t.edges.length = n * R + 1 ∧
      (∀ i j a b c, i < R → j < R → a < n → b < n → Placed comps map R i j c →
        t.mat[(i * n + a) + (j * n + b) * (n * R)]? = c.mat[a + b * n]? ∧
        t.reg[(i * n + a) + (j * n + b) * (n * R)]? = c.reg[a + b * n]? ∧
        t.pins[(i * n + a) + (j * n + b) * (n * R)]? =
          (c.pins[a + b * n]?).map
            (fun q => q + ((i + j * R : Nat) : Int) * ((pinDim * pinDim : Nat) : Int)) ∧
        t.ass[(i * n + a) + (j * n + b) * (n * R)]? = some ((i + j * R : Nat) : Int)) ∧
      rows.length = R ∧
      (∀ j r, rows[j]? = some r → ∃ c, Placed comps map R 0 j c ∧ r = c.dy) ∧
      (∀ j b r, rows[j]? = some r → b ≤ n →
        t.edges[j * n + b]? = some (((rows.take j).map List.sum).sum + (r.take b).sum)) := by
  have some_of : ∀ (l : List Int) k, l.length = n * n → k < n * n → (l[k]?).isSome := by
    intro l k hl hk; rw [List.getElem?_eq_getElem (by omega)]; rfl
  obtain ⟨m1, hm1, hl1, hg1⟩ := tile_of_fits h (fun _ c k => c.mat[k]?)
    (fun p c k hc hk => some_of _ k (h.maps c hc).1 hk)
  obtain ⟨m2, hm2, hl2, hg2⟩ := tile_of_fits h (fun _ c k => c.reg[k]?)
    (fun p c k hc hk => some_of _ k (h.maps c hc).2.1 hk)
  obtain ⟨m3, hm3, hl3, hg3⟩ := tile_of_fits h (fun p c k =>
      (c.pins[k]?).map (· + (p : Int) * ((pinDim * pinDim : Nat) : Int)))
    (fun p c k hc hk => by rw [Option.isSome_map]; exact some_of _ k (h.maps c hc).2.2 hk)
  obtain ⟨m4, hm4, hl4, hg4⟩ := tile_of_fits h (fun p _ _ => some (p : Int))
    (fun _ _ _ _ _ => rfl)
  obtain ⟨e, rows, he, hle, hr, hrc, hre⟩ := edges_of_fits h
  refine ⟨⟨e, m1, m2, m3, m4⟩, rows, ?_, hl1, hle, ?_, hr, hrc, hre⟩
  · match comps, h with
    | [], h => exact absurd rfl h.nonempty
    | p0 :: rest, h =>
        have hs := h.square p0 (by simp)
        have hR : Nat.sqrt map.length = R := by rw [h.mapLen, Nat.sqrt_eq]
        have hE : tileEdges (p0 :: rest) map R p0.nx p0.ny = some e := by
          rw [hs.1, hs.2.1]; exact he
        have h1 : tile (p0 :: rest) map R p0.nx p0.ny (fun _ c k => c.mat[k]?) = some m1 := by
          rw [hs.1, hs.2.1]; exact hm1
        have h2 : tile (p0 :: rest) map R p0.nx p0.ny (fun _ c k => c.reg[k]?) = some m2 := by
          rw [hs.1, hs.2.1]; exact hm2
        have h3 : tile (p0 :: rest) map R p0.nx p0.ny (fun p c k =>
            (c.pins[k]?).map (· + (p : Int) * ((pinDim * pinDim : Nat) : Int))) = some m3 := by
          rw [hs.1, hs.2.1]; exact hm3
        have h4 : tile (p0 :: rest) map R p0.nx p0.ny (fun p _ _ => some (p : Int)) = some m4 := by
          rw [hs.1, hs.2.1]; exact hm4
        rw [core, if_neg (by simp [h.mapLen])]
        simp only [hR, hE, h1, h2, h3, h4]
        rfl
  · intro i j a b c hi hj ha hb hp
    exact ⟨hg1 i j a b c hi hj ha hb hp, hg2 i j a b c hi hj ha hb hp,
      hg3 i j a b c hi hj ha hb hp, hg4 i j a b c hi hj ha hb hp⟩

/-- When every component has the same widths `w`, edges repeat `w` with period `w.sum`; the
    same edges serve both axes, so this is the correct tiling in x as well. -/
theorem C37_shared_edges_partial {R n : Nat} {comps : List (Piece K)} {map : List Int}
    (h : Fits R n comps map) (w : List K) (hw : ∀ c ∈ comps, c.dy = w) :
    ∃ t, assembly R R comps map = .ok t ∧
      ∀ j b, j < R → b ≤ n → t.edges[j * n + b]? = some ((j : K) * w.sum + (w.take b).sum) := by
  obtain ⟨t, rows, ht, -, -, -, -, -, hr, hrc, hre⟩ := C37_assembly_tiles_pins_partial h
  refine ⟨t, ht, fun j b hj hb => ?_⟩
  have hall : ∀ r ∈ rows, r = w := by
    intro r hr
    obtain ⟨q, hq⟩ := List.getElem?_of_mem hr
    obtain ⟨c, ⟨m, -, hc⟩, rfl⟩ := hrc q r hq
    exact hw c (List.mem_of_getElem? hc)
  have hrep : rows = List.replicate R w := List.eq_replicate_iff.2 ⟨hr, hall⟩
  have := hre j b w (by rw [hrep]; simp [hj]) hb
  rw [this, hrep, List.take_replicate, List.map_replicate, List.sum_replicate, nsmul_eq_mul]
  rw [Nat.min_eq_left hj.le]

/-- Pin numbers in a core are unique: two cells share a number only if they belong to the
    same assembly position and carry the same pin number within the assembly. -/
theorem C37_core_pin_numbers_unique (pinDim p p' q q' : Nat) (hq : q < pinDim * pinDim)
    (hq' : q' < pinDim * pinDim)
    (h : (q : Int) + (p : Int) * ((pinDim * pinDim : Nat) : Int) =
      (q' : Int) + (p' : Int) * ((pinDim * pinDim : Nat) : Int)) : p = p' ∧ q = q' := by
  have h' : q + p * (pinDim * pinDim) = q' + p' * (pinDim * pinDim) := by exact_mod_cast h
  have e : ∀ a b, a < pinDim * pinDim → (a + b * (pinDim * pinDim)) / (pinDim * pinDim) = b := by
    intro a b ha
    rw [Nat.add_mul_div_right _ _ (by omega), Nat.div_eq_of_lt ha, Nat.zero_add]
  have h1 : p = p' := by
    have := congrArg (· / (pinDim * pinDim)) h'
    simp only [e q p hq, e q' p' hq'] at this
    exact this
  subst h1
  exact ⟨rfl, by omega⟩

end

/-! Concrete pins: `pA`, `pB` with 2 by 2 cells. -/

def pA : Piece ℚ := ⟨2, 2, [1, 1], [0, 1, 2, 3], [0, 0, 0, 1], [0, 0, 0, 0]⟩
def pB : Piece ℚ := ⟨2, 2, [1/2, 3/2], [4, 5, 6, 7], [0, 0, 0, 1], [0, 0, 0, 0]⟩

example : Fits 2 2 [pA, pB] [0, 1, 1, 0] where
  nonempty := by simp
  square := by decide +kernel
  maps := by decide +kernel
  mapLen := rfl
  mapOk := by decide

example : ∃ t, assembly 2 2 [pA, pB] [0, 1, 1, 0] = .ok t ∧
    t.mat = [0, 1, 4, 5, 2, 3, 6, 7, 4, 5, 0, 1, 6, 7, 2, 3] ∧
    t.pins = [0, 0, 1, 1, 0, 0, 1, 1, 2, 2, 3, 3, 2, 2, 3, 3] :=
  ⟨⟨[0, 1, 2, 5/2, 4], [0, 1, 4, 5, 2, 3, 6, 7, 4, 5, 0, 1, 6, 7, 2, 3],
    [0, 0, 0, 0, 0, 1, 0, 1, 0, 0, 0, 0, 0, 1, 0, 1],
    [0, 0, 1, 1, 0, 0, 1, 1, 2, 2, 3, 3, 2, 2, 3, 3], []⟩, by decide +kernel⟩

/-- The full claim fails in x: pins of different widths in different columns.  With pins of
    widths `[1,1]` and `[1/2,3/2]` side by side the x edges should be `0,1,2,5/2,4` but the
    first column's edges `0,1,2,3,4` are used. -/
theorem C37_x_edges_wrong_for_mixed_pins :
    ∃ t, assembly 2 2 [pA, pB] [0, 1, 0, 1] = .ok t ∧
      t.edges = [0, 1, 2, 3, 4] ∧
      t.edges ≠ [0, 1, 1 + 1, (1 + 1) + 1/2, (1 + 1) + 1/2 + 3/2] :=
  ⟨⟨[0, 1, 2, 3, 4], [0, 1, 4, 5, 2, 3, 6, 7, 0, 1, 4, 5, 2, 3, 6, 7],
    [0, 0, 0, 0, 0, 1, 0, 1, 0, 0, 0, 0, 0, 1, 0, 1],
    [0, 0, 1, 1, 0, 0, 1, 1, 2, 2, 3, 3, 2, 2, 3, 3], []⟩, by decide +kernel⟩

def pN (m : Int) : Piece ℚ := ⟨1, 1, [1], [m], [0], [0]⟩

/-- Rectangular assemblies are accepted but built wrongly: a 3-by-2 assembly of one-cell
    pins with materials 0…5 gives a 2-by-2 mesh, and the pin at column 0, row 1 is the one
    the map puts at column 2, row 0. -/
theorem C37_rectangular_assembly_wrong :
    ∃ t, assembly 3 2 [pN 0, pN 1, pN 2, pN 3, pN 4, pN 5] [0, 1, 2, 3, 4, 5] = .ok t ∧
      t.mat.length = 4 ∧ t.mat = [0, 1, 2, 3] :=
  ⟨⟨[0, 1, 2], [0, 1, 2, 3], [0, 0, 0, 0], [0, 1, 2, 3], []⟩, by decide +kernel⟩

/-! ## C61: pin-cell meshing -/

section
variable {K : Type} [Field K] [LinearOrder K] [IsStrictOrderedRing K]

theorem regionLoop_spec (d2 : K) : ∀ (rs : List K) (p : Nat),
    ∃ r, regionLoop d2 rs p (p + rs.length) = p + r ∧ r ≤ rs.length ∧
      (∀ q ρ, rs[q]? = some ρ → q < r → ¬ d2 < ρ * ρ) ∧
      (∀ ρ, rs[r]? = some ρ → d2 < ρ * ρ)
  | [], p => ⟨0, by simp [regionLoop], by simp, by simp, by simp⟩
  | ρ :: rs, p => by
      simp only [regionLoop]
      split
      · next h => exact ⟨0, by simp, by simp, by simp, by simpa using h⟩
      · next h =>
          obtain ⟨r, h1, h2, h3, h4⟩ := regionLoop_spec d2 rs (p + 1)
          refine ⟨r + 1, ?_, by simpa using h2, ?_, by simpa using h4⟩
          · rw [List.length_cons, show p + (rs.length + 1) = p + 1 + rs.length by omega, h1]; omega
          · intro q σ hq hlt
            cases q with
            | zero => simp at hq; subst hq; exact h
            | succ q => exact h3 q σ (by simpa using hq) (by omega)

/-- The region of a pin at squared distance `d2` from its centre: the innermost ring whose
    radius exceeds the distance, or the outer region. -/
def IsRegion (radii : List K) (d2 : K) (r : Nat) : Prop :=
  r ≤ radii.length ∧ (∀ q ρ, radii[q]? = some ρ → q < r → ρ * ρ ≤ d2) ∧
    (∀ ρ, radii[r]? = some ρ → d2 < ρ * ρ)

/-- Squared distance of the centre of cell `(i,j)` from the centre of the pin. -/
def centreDist2 (pitch : K) (n i j : Nat) : K :=
  (((2 * i + 1 : Nat) : K) * pitch / (2 * n) - pitch / 2) ^ 2 +
    (((2 * j + 1 : Nat) : K) * pitch / (2 * n) - pitch / 2) ^ 2

/-- A uniformly meshed pin: `n` equal steps from 0 to the pitch, and every fine cell has the
    region containing its centre and that region's material. -/
theorem C61_uniform_pin_mesh (pitch : K) (radii : List K) (matMap : List Int) (n : Nat)
    (hn : 0 < n) (hm : matMap.length = radii.length + 1) :
    ∃ e mat reg, meshifyUniform pitch radii matMap n = some (e, mat, reg) ∧
      e.length = n + 1 ∧ (∀ q, q ≤ n → e[q]? = some ((q : K) * pitch / n)) ∧
      e[n]? = some pitch ∧
      mat.length = n * n ∧ reg.length = n * n ∧
      ∀ i j, i < n → j < n → ∃ r, IsRegion radii (centreDist2 pitch n i j) r ∧
        reg[i + j * n]? = some (r : Int) ∧ ∃ m, matMap[r]? = some m ∧
        mat[i + j * n]? = some m := by
  have hn0 : (n : K) ≠ 0 := by exact_mod_cast hn.ne'
  set width := pitch / (n : K) with hw
  have hreg : ∀ i j, IsRegion radii (centreDist2 pitch n i j) (findRegion pitch radii i j width) := by
    intro i j
    have hd : (((i : K) + 1 / 2) * width - 1 / 2 * pitch) * (((i : K) + 1 / 2) * width - 1 / 2 * pitch) +
        (((j : K) + 1 / 2) * width - 1 / 2 * pitch) * (((j : K) + 1 / 2) * width - 1 / 2 * pitch) =
        centreDist2 pitch n i j := by
      simp only [centreDist2, hw]; push_cast; field_simp
    obtain ⟨r, h1, h2, h3, h4⟩ := regionLoop_spec (centreDist2 pitch n i j) radii 0
    have e : findRegion pitch radii i j width = r := by
      simp only [findRegion, hd]; simpa using h1
    rw [e]
    exact ⟨h2, fun q ρ hq hlt => not_lt.1 (h3 q ρ hq hlt), h4⟩
  obtain ⟨e, he, hel, -, hes⟩ := edgeLoop_spec (List.replicate n width) (List.replicate (n + 1) 0) 0
    (by simp)
  let cells := (List.range n).flatMap fun j => (List.range n).map fun i => (i, j)
  have hcells : ∀ i j, (i, j) ∈ cells ↔ i < n ∧ j < n := by
    intro i j; simp [cells, and_comm]
  have wr : ∀ (f : Nat → Nat → Int) (v : Nat → Nat → Option Int),
      (∀ i j, i < n → j < n → v i j = some (f i j)) →
      ∃ out, applyWrites (List.replicate (n * n) 1)
        (cells.map fun (i, j) => (i + j * n, v i j)) = some out ∧ out.length = n * n ∧
        ∀ i j, i < n → j < n → out[i + j * n]? = some (f i j) := by
    intro f v hv
    have dec : ∀ i j, i < n → (i + j * n) % n = i ∧ (i + j * n) / n = j := by
      intro i j hi
      exact ⟨by rw [Nat.add_mul_mod_self_right, Nat.mod_eq_of_lt hi],
        by rw [Nat.add_mul_div_right _ _ hn, Nat.div_eq_of_lt hi, Nat.zero_add]⟩
    obtain ⟨out, ho, hl, hg⟩ := applyWrites_spec (fun c => f (c % n) (c / n))
      (cells.map fun (i, j) => (i + j * n, v i j)) (List.replicate (n * n) 1) (by
        intro w hw
        simp only [List.mem_map, Prod.exists] at hw
        obtain ⟨i, j, hc, rfl⟩ := hw
        obtain ⟨hi, hj⟩ := (hcells i j).1 hc
        refine ⟨by simpa using idx_row_lt hi hj, ?_⟩
        simp only [(dec i j hi).1, (dec i j hi).2, hv i j hi hj])
    refine ⟨out, ho, by simpa using hl, fun i j hi hj => ?_⟩
    rw [hg (i + j * n) ⟨(i + j * n, v i j), ?_, rfl⟩, (dec i j hi).1, (dec i j hi).2]
    simp only [List.mem_map, Prod.exists]
    exact ⟨i, j, (hcells i j).2 ⟨hi, hj⟩, rfl⟩
  obtain ⟨mat, hmat, hml, hmg⟩ := wr
    (fun i j => matMap.getD (findRegion pitch radii i j width) 0)
    (fun i j => matMap[findRegion pitch radii i j width]?) (by
      intro i j _ _
      have : findRegion pitch radii i j width < matMap.length := by
        have := (hreg i j).1; omega
      simp [List.getElem?_eq_getElem this])
  obtain ⟨reg, hrg, hrl, hrgg⟩ := wr (fun i j => (findRegion pitch radii i j width : Int))
    (fun i j => some (findRegion pitch radii i j width : Int)) (fun _ _ _ _ => rfl)
  have hedge : ∀ q, q ≤ n → e[q]? = some ((q : K) * pitch / n) := by
    intro q hq
    have := hes q (by simpa using hq)
    rw [Nat.zero_add] at this
    rw [this, List.take_replicate, Nat.min_eq_left hq, List.sum_replicate, nsmul_eq_mul]
    simp [hw, mul_div_assoc]
  refine ⟨e, mat, reg, ?_, by simpa using hel, hedge, ?_, hml, hrl, ?_⟩
  · have he' : edgeLoop (List.replicate (n + 1) 0) 0 (List.replicate n (some width)) = some e := by
      rw [← he, List.map_replicate]
    simp only [meshifyUniform]
    rw [← hw, he']
    change (do
      let mat ← applyWrites (List.replicate (n * n) 1)
        (cells.map fun (i, j) => (i + j * n, matMap[findRegion pitch radii i j width]?))
      let reg ← applyWrites (List.replicate (n * n) 1)
        (cells.map fun (i, j) => (i + j * n, some (findRegion pitch radii i j width : Int)))
      pure (e, mat, reg)) = _
    rw [hmat]
    change (do
      let reg ← applyWrites (List.replicate (n * n) 1)
        (cells.map fun (i, j) => (i + j * n, some (findRegion pitch radii i j width : Int)))
      pure (e, mat, reg)) = _
    rw [hrg]; rfl
  · rw [hedge n le_rfl, mul_div_cancel_left₀ _ hn0]
  · intro i j hi hj
    have hlt : findRegion pitch radii i j width < matMap.length := by
      have := (hreg i j).1; omega
    refine ⟨_, hreg i j, hrgg i j hi hj, matMap[findRegion pitch radii i j width],
      List.getElem?_eq_getElem hlt, ?_⟩
    rw [hmg i j hi hj]; simp [List.getElem?_eq_getElem hlt]

example : (meshifyUniform (4 : ℚ) [1] [7, 9] 4).map (·.2.1) =
    some [9, 9, 9, 9, 9, 7, 7, 9, 9, 7, 7, 9, 9, 9, 9, 9] := by decide +kernel

variable [FloorRing K]

/-- The best-fit fine mesh never has fewer cells than requested, the five adjustments never
    act, and it has exactly the requested number iff the central count came from the
    balancing formula. -/
theorem C61_best_fit_count (pitch r : K) (n : Int) :
    bestCounts pitch r n = bestInit pitch r n ∧
    n ≤ (bestCounts pitch r n).total ∧
    ((bestCounts pitch r n).total = n ↔
      ⌊1 / 4 * (n : K) * bestL r / (1 / 2 * pitch)⌋ - 1 ≤
        n - 2 * ((bestCounts pitch r n).mod + (bestCounts pitch r n).delta +
          (bestCounts pitch r n).l4)) := by
  have h0 : n ≤ (bestInit pitch r n).total := by
    simp only [bestInit, Counts.total]
    have := le_max_right (⌊1 / 4 * (n : K) * bestL r / (1 / 2 * pitch)⌋ - 1)
      (n - 2 * (max ⌊1 / 2 * (n : K) * bestMod pitch r / (1 / 2 * pitch)⌋ 1 +
        max ⌊1 / 2 * (n : K) * bestDelta r / (1 / 2 * pitch)⌋ 1 +
        max ⌊1 / 2 * (n : K) * (1 / 4 * bestL r) / (1 / 2 * pitch)⌋ 1))
    linarith
  have hfix : bestCounts pitch r n = bestInit pitch r n := by
    have a : ¬ (n - (bestInit pitch r n).total > 0) := by omega
    have b : ¬ (n - (bestInit pitch r n).total > 1) := by omega
    simp only [bestCounts, bestFix, a, b, if_false]
  refine ⟨hfix, by rw [hfix]; exact h0, ?_⟩
  rw [hfix]
  simp only [bestInit, Counts.total]
  constructor
  · intro h
    have := le_max_left (⌊1 / 4 * (n : K) * bestL r / (1 / 2 * pitch)⌋ - 1)
      (n - 2 * (max ⌊1 / 2 * (n : K) * bestMod pitch r / (1 / 2 * pitch)⌋ 1 +
        max ⌊1 / 2 * (n : K) * bestDelta r / (1 / 2 * pitch)⌋ 1 +
        max ⌊1 / 2 * (n : K) * (1 / 4 * bestL r) / (1 / 2 * pitch)⌋ 1))
    linarith
  · intro h
    rw [max_eq_right h]; ring

omit [LinearOrder K] [IsStrictOrderedRing K] [FloorRing K] in
/-- The best-fit coarse edges run from 0 to the pitch. -/
theorem C61_best_fit_edges [CharZero K] (pitch r : K) :
    (bestEdges pitch r)[0]? = some 0 ∧ (bestEdges pitch r)[7]? = some pitch := by
  refine ⟨rfl, ?_⟩
  simp only [bestEdges, List.getElem?_cons_succ, List.getElem?_cons_zero, Option.some.injEq,
    bestMod]
  ring

/-- Fuel area of the best-fit pin: sum over the coarse cells carrying fuel. -/
def fuelArea (pitch r : K) : K :=
  (fuelIndex.map fun c =>
    ((bestEdges pitch r).getD (c % 7 + 1) 0 - (bestEdges pitch r).getD (c % 7) 0) *
    ((bestEdges pitch r).getD (c / 7 + 1) 0 - (bestEdges pitch r).getD (c / 7) 0)).sum

end

/-- The best-fit pin conserves the fuel area `π r²` to within `10⁻¹⁴ r²`. -/
theorem C61_best_fit_fuel_area (pitch r : ℝ) :
    |fuelArea pitch r - Real.pi * r ^ 2| ≤ 1 / 10 ^ 14 * r ^ 2 := by
  have ha : fuelArea pitch r =
      (160496875 / 100000000 * (160496875 / 100000000) +
        2 * (160496875 / 100000000) * (176223981031790 / 1000000000000000)) * r ^ 2 := by
    simp [fuelArea, fuelIndex, bestEdges, bestMod, bestL, bestDelta]
    ring
  have h1 := Real.pi_gt_d20
  have h2 := Real.pi_lt_d20
  have hr : 0 ≤ r ^ 2 := sq_nonneg r
  rw [ha, ← sub_mul, abs_mul, abs_of_nonneg hr]
  apply mul_le_mul_of_nonneg_right _ hr
  rw [abs_le]
  constructor <;> norm_num at * <;> linarith

/-- A thin pin defeats the best-fit counts: pitch 1.26, radius 0.1 and 8 meshes give a
    negative central count and 9 cells in total instead of 8. -/
theorem C61_best_fit_thin_pin :
    (bestCounts (126 / 100 : ℚ) (1 / 10) 8).l2 = -1 ∧
    (bestCounts (126 / 100 : ℚ) (1 / 10) 8).total = 9 := by decide +kernel

example : (bestCounts (126 / 100 : ℚ) (54 / 100) 7).total = 7 ∧
    (bestCounts (126 / 100 : ℚ) (54 / 100) 7).l2 = 1 := by decide +kernel

end Detran.Lattice
