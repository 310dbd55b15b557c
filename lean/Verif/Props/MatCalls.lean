import Verif.Model.MatCalls
import Mathlib.Algebra.BigOperators.Group.Finset.Basic
import Mathlib.Algebra.Order.Field.Rat
import Mathlib.Tactic.Ring

/-!
# Property C62 for every call of a material

Histories mix single-value and vectorised setters of all eight tables, the two helpers,
`finalize` and `set_downscatter`.
-/

namespace Detran.Material

open Finset

variable {K : Type} [Field K] [LinearOrder K]

/-- Specification: scatter value from `gp` to `g` of material `m` after a history given
    latest call first. -/
def scatVal : List (Call K) → Nat → Nat → Nat → K
  | [], _, _, _ => 0
  | .scat m' g' gp' v :: h, m, g, gp =>
    if m' = m ∧ g' = g ∧ gp' = gp then v else scatVal h m g gp
  | .scats m' g' v :: h, m, g, gp => if m' = m ∧ g' = g then v.getD gp 0 else scatVal h m g gp
  | _ :: h, m, g, gp => scatVal h m g gp

/-- Specification: the history has a call of `finalize`. -/
def sealed : List (Call K) → Bool
  | [] => false
  | .finalize :: _ => true
  | _ :: h => sealed h

/-- Specification: entry of table `t` after a history given latest call first.  The value is
    the one written by the latest call that writes it; `nu` starts at one, the others at zero. -/
def val (G : Nat) : List (Call K) → Tab → Nat → Nat → K
  | [], t, _, _ => if t = .nu then 1 else 0
  | .one t' m' g' v :: h, t, m, g => if t' = t ∧ m' = m ∧ g' = g then v else val G h t m g
  | .vec t' m' v :: h, t, m, g => if t' = t ∧ m' = m then v.getD g 0 else val G h t m g
  | .absorb :: h, t, m, g =>
    if t = .sigA then val G h .sigT m g - ∑ gp ∈ range G, scatVal h m gp g else val G h t m g
  | .diffuse :: h, t, m, g =>
    if t = .diff then 1 / (3 * val G h .sigT m g) else val G h t m g
  | .finalize :: h, t, m, g =>
    if t = .nuSigF then val G h .nu m g * val G h .sigF m g else val G h t m g
  | .down _ _ :: h, t, m, g =>
    if t = .nuSigF ∧ sealed h = true then val G h .nu m g * val G h .sigF m g
    else val G h t m g
  | .scat _ _ _ _ :: h, t, m, g => val G h t m g
  | .scats _ _ _ :: h, t, m, g => val G h t m g

/-- Specification: the call stays within the tables and its vector is long enough. -/
def Call.fits (M G : Nat) : Call K → Prop
  | .one _ m g _ => m < M ∧ g < G
  | .vec _ m v => m < M ∧ G ≤ v.length
  | .scat m g gp _ => m < M ∧ g < G ∧ gp < G
  | .scats m g v => m < M ∧ g < G ∧ G ≤ v.length
  | _ => True

/-! ## Helpers -/

theorem put_get (x : Mat K) (t t' : Tab) (m m' g g' : Nat) (v : K) :
    (x.put t' m' g' v).get t m g = if t' = t ∧ m' = m ∧ g' = g then v else x.get t m g := by
  have hc : (g = g' ∧ m = m') ↔ (m' = m ∧ g' = g) :=
    ⟨fun h => ⟨h.2.symm, h.1.symm⟩, fun h => ⟨h.2.symm, h.1.symm⟩⟩
  cases t' <;> cases t <;> simp [Mat.put, Mat.get, set2, hc]

theorem put_keep (x : Mat K) (t : Tab) (m g : Nat) (v : K) :
    (x.put t m g v).G = x.G ∧ (x.put t m g v).M = x.M ∧ (x.put t m g v).sigS = x.sigS ∧
    (x.put t m g v).finalized = x.finalized := by
  cases t <;> exact ⟨rfl, rfl, rfl, rfl⟩

/-- The loop of a vectorised setter stopped after `n` groups. -/
theorem putVec_loop (x : Mat K) (t : Tab) (m : Nat) (v : List K) (n : Nat) :
    (n ≤ v.length → ∃ y, (List.range n).foldlM
        (fun y g => (v[g]?).map (fun a => y.put t m g a)) x = some y ∧
      y.G = x.G ∧ y.M = x.M ∧ y.sigS = x.sigS ∧ y.finalized = x.finalized ∧
      ∀ t' m' g', y.get t' m' g' =
        if t = t' ∧ m = m' ∧ g' < n then v.getD g' 0 else x.get t' m' g') ∧
    (v.length < n → (List.range n).foldlM
        (fun y g => (v[g]?).map (fun a => y.put t m g a)) x = none) := by
  induction n with
  | zero => exact ⟨fun _ => ⟨x, rfl, rfl, rfl, rfl, rfl, by simp⟩, fun h => absurd h (by omega)⟩
  | succ n ih =>
    constructor
    · intro hn
      obtain ⟨y, h1, h2, h3, h4, h5, h6⟩ := ih.1 (by omega)
      have hv : v[n]? = some (v.getD n 0) := by
        rw [List.getD_eq_getElem?_getD, List.getElem?_eq_getElem (by omega)]; rfl
      obtain ⟨k1, k2, k3, k4⟩ := put_keep y t m n (v.getD n 0)
      refine ⟨y.put t m n (v.getD n 0), ?_, k1.trans h2, k2.trans h3, k3.trans h4,
        k4.trans h5, ?_⟩
      · rw [List.range_succ, List.foldlM_append, h1]
        generalize v.getD n 0 = a at hv
        simp [hv]
      · intro t' m' g'
        rw [put_get, h6]
        by_cases ht : t = t' ∧ m = m'
        · rw [ht.1, ht.2]
          rcases Nat.lt_trichotomy g' n with h | h | h
          · rw [if_neg (by omega), if_pos ⟨rfl, rfl, h⟩, if_pos ⟨rfl, rfl, by omega⟩]
          · subst h
            rw [if_pos ⟨rfl, rfl, rfl⟩, if_pos ⟨rfl, rfl, by omega⟩]
          · rw [if_neg (by omega), if_neg (by omega), if_neg (by omega)]
        · rw [if_neg (fun h => ht ⟨h.1, h.2.1⟩), if_neg (fun h => ht ⟨h.1, h.2.1⟩),
            if_neg (fun h => ht ⟨h.1, h.2.1⟩)]
    · intro hn
      rw [List.range_succ, List.foldlM_append]
      by_cases h : v.length < n
      · rw [ih.2 h]; rfl
      · obtain ⟨y, h1, _⟩ := ih.1 (by omega)
        rw [h1]
        simp [List.getElem?_eq_none (show v.length ≤ n by omega)]

theorem putScats_loop (x : Mat K) (m g : Nat) (v : List K) (n : Nat) :
    (n ≤ v.length → ∃ y, (List.range n).foldlM
        (fun y gp => (v[gp]?).map (fun a => { y with sigS := set3 y.sigS g gp m a })) x = some y ∧
      y = { x with sigS := y.sigS } ∧
      ∀ g' gp' m', y.sigS g' gp' m' =
        if m = m' ∧ g = g' ∧ gp' < n then v.getD gp' 0 else x.sigS g' gp' m') ∧
    (v.length < n → (List.range n).foldlM
        (fun y gp => (v[gp]?).map (fun a => { y with sigS := set3 y.sigS g gp m a })) x = none) := by
  induction n with
  | zero => exact ⟨fun _ => ⟨x, rfl, rfl, by simp⟩, fun h => absurd h (by omega)⟩
  | succ n ih =>
    constructor
    · intro hn
      obtain ⟨y, h1, h2, h6⟩ := ih.1 (by omega)
      have hv : v[n]? = some (v.getD n 0) := by
        rw [List.getD_eq_getElem?_getD, List.getElem?_eq_getElem (by omega)]; rfl
      refine ⟨{ y with sigS := set3 y.sigS g n m (v.getD n 0) }, ?_, by rw [h2], ?_⟩
      · rw [List.range_succ, List.foldlM_append, h1]
        generalize v.getD n 0 = a at hv
        simp [hv]
      · intro g' gp' m'
        show set3 y.sigS g n m (v.getD n 0) g' gp' m' = _
        rw [set3, h6]
        by_cases ht : m = m' ∧ g = g'
        · rw [ht.1, ht.2]
          rcases Nat.lt_trichotomy gp' n with h | h | h
          · rw [if_neg (by omega), if_pos ⟨rfl, rfl, h⟩, if_pos ⟨rfl, rfl, by omega⟩]
          · subst h
            rw [if_pos ⟨rfl, rfl, rfl⟩, if_pos ⟨rfl, rfl, by omega⟩]
          · rw [if_neg (by omega), if_neg (by omega), if_neg (by omega)]
        · rw [if_neg (fun h => ht ⟨h.2.2.symm, h.1.symm⟩), if_neg (fun h => ht ⟨h.1, h.2.1⟩),
            if_neg (fun h => ht ⟨h.1, h.2.1⟩)]
    · intro hn
      rw [List.range_succ, List.foldlM_append]
      by_cases h : v.length < n
      · rw [ih.2 h]; rfl
      · obtain ⟨y, h1, _⟩ := ih.1 (by omega)
        rw [h1]
        simp [List.getElem?_eq_none (show v.length ≤ n by omega)]

theorem foldl_sub (G : Nat) (f : Nat → K) (a : K) :
    (List.range G).foldl (fun s i => s - f i) a = a - ∑ i ∈ range G, f i := by
  induction G with
  | zero => simp
  | succ n ih =>
    rw [List.range_succ, List.foldl_append, ih, Finset.sum_range_succ]
    simp only [List.foldl_cons, List.foldl_nil]
    ring

/-- What the tables hold after history `h` (latest first). -/
def Holds (M G : Nat) (h : List (Call K)) (x : Mat K) : Prop :=
  x.G = G ∧ x.M = M ∧ x.finalized = sealed h ∧
  (∀ t m g, m < M → g < G → x.get t m g = val G h t m g) ∧
  (∀ m g gp, m < M → g < G → gp < G → x.sigS g gp m = scatVal h m g gp)

theorem finalize_get (x : Mat K) (t : Tab) (m g : Nat) :
    x.finalize.get t m g = if t = .nuSigF then x.get .nu m g * x.get .sigF m g
      else x.get t m g := by
  cases t <;> simp [Mat.finalize, Mat.get]

/-- One call keeps the tables equal to the specification. -/
theorem call_holds {M G : Nat} {h : List (Call K)} {x y : Mat K} (c : Call K)
    (hx : Holds M G h x) (hc : x.call c = some y) : Holds M G (c :: h) y := by
  obtain ⟨e1, e2, e3, e4, e5⟩ := hx
  cases c with
  | one t m g v =>
    simp only [Mat.call] at hc
    split at hc
    · rename_i hr
      obtain rfl := Option.some.inj hc
      obtain ⟨k1, k2, k3, k4⟩ := put_keep x t m g v
      refine ⟨k1.trans e1, k2.trans e2, k4.trans e3, fun t' m' g' hm hg => ?_,
        fun m' g' gp hm hg hgp => ?_⟩
      · rw [put_get, e4 _ _ _ hm hg]; rfl
      · rw [k3]; exact e5 _ _ _ hm hg hgp
    · cases hc
  | vec t m v =>
    simp only [Mat.call] at hc
    split at hc
    · rcases Nat.lt_or_ge v.length x.G with hl | hl
      · rw [Mat.putVec, (putVec_loop x t m v x.G).2 hl] at hc; cases hc
      · obtain ⟨z, h1, h2, h3, h4, h5, h6⟩ := (putVec_loop x t m v x.G).1 hl
        rw [Mat.putVec, h1] at hc
        obtain rfl := Option.some.inj hc
        refine ⟨h2.trans e1, h3.trans e2, h5.trans e3, fun t' m' g' hm hg => ?_,
          fun m' g' gp hm hg hgp => ?_⟩
        · rw [h6, e4 _ _ _ hm hg]
          show _ = if t = t' ∧ m = m' then v.getD g' 0 else val G h t' m' g'
          by_cases ht : t = t' ∧ m = m'
          · rw [if_pos ht, if_pos ⟨ht.1, ht.2, e1 ▸ hg⟩]
          · rw [if_neg ht, if_neg (fun h => ht ⟨h.1, h.2.1⟩)]
        · rw [h4]; exact e5 _ _ _ hm hg hgp
    · cases hc
  | scat m g gp v =>
    simp only [Mat.call] at hc
    split at hc
    · obtain rfl := Option.some.inj hc
      refine ⟨e1, e2, e3, fun t' m' g' hm hg => (e4 t' m' g' hm hg : _), fun m' g' gp' hm hg hgp => ?_⟩
      show set3 x.sigS g gp m v g' gp' m' = if m = m' ∧ g = g' ∧ gp = gp' then v else scatVal h m' g' gp'
      rw [set3, e5 _ _ _ hm hg hgp]
      by_cases ht : m = m' ∧ g = g' ∧ gp = gp'
      · rw [if_pos ht, if_pos ⟨ht.2.1.symm, ht.2.2.symm, ht.1.symm⟩]
      · rw [if_neg ht, if_neg (fun h => ht ⟨h.2.2.symm, h.1.symm, h.2.1.symm⟩)]
    · cases hc
  | scats m g v =>
    simp only [Mat.call] at hc
    split at hc
    · rcases Nat.lt_or_ge v.length x.G with hl | hl
      · rw [Mat.putScats, (putScats_loop x m g v x.G).2 hl] at hc; cases hc
      · obtain ⟨z, h1, h2, h6⟩ := (putScats_loop x m g v x.G).1 hl
        rw [Mat.putScats, h1] at hc
        obtain rfl := Option.some.inj hc
        refine ⟨by rw [h2]; exact e1, by rw [h2]; exact e2, by rw [h2]; exact e3,
          fun t' m' g' hm hg => ?_, fun m' g' gp' hm hg hgp => ?_⟩
        · have : z.get t' m' g' = x.get t' m' g' := by rw [h2]; cases t' <;> rfl
          rw [this]; exact e4 t' m' g' hm hg
        · rw [h6, e5 _ _ _ hm hg hgp]
          show _ = if m = m' ∧ g = g' then v.getD gp' 0 else scatVal h m' g' gp'
          by_cases ht : m = m' ∧ g = g'
          · rw [if_pos ht, if_pos ⟨ht.1, ht.2, e1 ▸ hgp⟩]
          · rw [if_neg ht, if_neg (fun h => ht ⟨h.1, h.2.1⟩)]
    · cases hc
  | absorb =>
    obtain rfl := Option.some.inj hc
    refine ⟨e1, e2, e3, fun t' m' g' hm hg => ?_, e5⟩
    show _ = if t' = .sigA then val G h .sigT m' g' - ∑ gp ∈ range G, scatVal h m' gp g'
      else val G h t' m' g'
    by_cases ht : t' = .sigA
    · subst ht
      rw [if_pos rfl]
      show (if g' < x.G ∧ m' < x.M then _ else _) = _
      rw [if_pos ⟨e1.symm ▸ hg, e2.symm ▸ hm⟩, foldl_sub, ← e4 .sigT m' g' hm hg, e1]
      congr 1
      exact Finset.sum_congr rfl fun gp hgp => e5 _ _ _ hm (Finset.mem_range.1 hgp) hg
    · rw [if_neg ht, ← e4 t' m' g' hm hg]
      cases t' <;> first | rfl | exact absurd rfl ht
  | diffuse =>
    obtain rfl := Option.some.inj hc
    refine ⟨e1, e2, e3, fun t' m' g' hm hg => ?_, e5⟩
    show _ = if t' = .diff then 1 / (3 * val G h .sigT m' g') else val G h t' m' g'
    by_cases ht : t' = .diff
    · subst ht
      rw [if_pos rfl]
      show (if g' < x.G ∧ m' < x.M then _ else _) = _
      rw [if_pos ⟨e1.symm ▸ hg, e2.symm ▸ hm⟩, ← e4 .sigT m' g' hm hg, div_div]
      rfl
    · rw [if_neg ht, ← e4 t' m' g' hm hg]
      cases t' <;> first | rfl | exact absurd rfl ht
  | finalize =>
    obtain rfl := Option.some.inj hc
    refine ⟨e1, e2, rfl, fun t' m' g' hm hg => ?_, e5⟩
    rw [finalize_get, e4 _ _ _ hm hg, e4 _ _ _ hm hg, e4 _ _ _ hm hg]
    rfl
  | down v tran =>
    obtain rfl := Option.some.inj hc
    have hget : ∀ t m g, ({ x with down1 := if tran then v else x.down1, down0 := v } : Mat K).get t m g
        = x.get t m g := fun t m g => by cases t <;> rfl
    by_cases hf : x.finalized = true
    · have hs : sealed h = true := e3 ▸ hf
      rw [show x.setDownscatter v tran
        = ({ x with down1 := if tran then v else x.down1, down0 := v } : Mat K).finalize from by
          simp only [Mat.setDownscatter]; rw [if_pos hf]]
      refine ⟨e1, e2, hs.symm, fun t' m' g' hm hg => ?_, e5⟩
      rw [finalize_get, hget, hget, hget, e4 _ _ _ hm hg, e4 _ _ _ hm hg, e4 _ _ _ hm hg]
      show _ = if t' = .nuSigF ∧ sealed h = true then _ else _
      rw [hs]
      simp
    · have hs : ¬ sealed h = true := e3 ▸ hf
      rw [show x.setDownscatter v tran
        = ({ x with down1 := if tran then v else x.down1, down0 := v } : Mat K) from by
          simp only [Mat.setDownscatter]; rw [if_neg hf]]
      refine ⟨e1, e2, e3, fun t' m' g' hm hg => ?_, e5⟩
      rw [hget, e4 _ _ _ hm hg]
      show _ = if t' = .nuSigF ∧ sealed h = true then _ else _
      rw [if_neg (fun h => hs h.2)]

theorem new_holds (M G : Nat) : Holds M G [] (Mat.new M G : Mat K) := by
  refine ⟨rfl, rfl, rfl, fun t m g _ _ => ?_, fun _ _ _ _ _ _ => rfl⟩
  cases t <;> rfl

theorem calls_holds {M G : Nat} : ∀ (l h : List (Call K)) (x y : Mat K), Holds M G h x →
    x.calls l = some y → Holds M G (l.reverse ++ h) y
  | [], h, x, y, hx, e => by
    obtain rfl := Option.some.inj e
    exact hx
  | c :: l, h, x, y, hx, e => by
    simp only [Mat.calls, List.foldlM_cons] at e
    cases hc : x.call c with
    | none => rw [hc] at e; cases e
    | some z =>
      rw [hc] at e
      have := calls_holds l (c :: h) z y (call_holds c hx hc) e
      simpa using this

theorem call_some {M G : Nat} {h : List (Call K)} {x : Mat K} (hx : Holds M G h x) (c : Call K) :
    (∃ y, x.call c = some y) ↔ c.fits M G := by
  obtain ⟨e1, e2, -⟩ := hx
  subst e1 e2
  cases c with
  | one t m g v =>
    simp only [Mat.call, Call.fits]
    split <;> simp_all
  | vec t m v =>
    simp only [Mat.call, Call.fits]
    split
    · rename_i hm
      rcases Nat.lt_or_ge v.length x.G with hl | hl
      · rw [Mat.putVec, (putVec_loop x t m v x.G).2 hl]
        exact ⟨fun ⟨_, h⟩ => (by cases h), fun h => absurd h.2 (by omega)⟩
      · obtain ⟨z, h1, _⟩ := (putVec_loop x t m v x.G).1 hl
        exact ⟨fun _ => ⟨hm, hl⟩, fun _ => ⟨z, h1⟩⟩
    · rename_i hm
      exact ⟨fun ⟨_, h⟩ => (by cases h), fun h => absurd h.1 hm⟩
  | scat m g gp v =>
    simp only [Mat.call, Call.fits]
    split <;> simp_all
  | scats m g v =>
    simp only [Mat.call, Call.fits]
    split
    · rename_i hm
      rcases Nat.lt_or_ge v.length x.G with hl | hl
      · rw [Mat.putScats, (putScats_loop x m g v x.G).2 hl]
        exact ⟨fun ⟨_, h⟩ => (by cases h), fun h => absurd h.2.2 (by omega)⟩
      · obtain ⟨z, h1, _⟩ := (putScats_loop x m g v x.G).1 hl
        exact ⟨fun _ => ⟨hm.1, hm.2, hl⟩, fun _ => ⟨z, h1⟩⟩
    · rename_i hm
      exact ⟨fun ⟨_, h⟩ => (by cases h), fun h => absurd ⟨h.1, h.2.1⟩ hm⟩
  | _ => exact ⟨fun _ => trivial, fun _ => ⟨_, rfl⟩⟩

/-! ## The property -/

/-- C62: a history of calls is free of undefined behaviour exactly when every call stays in
    range and every vector handed over has an entry for each group. -/
theorem C62_defined (M G : Nat) (l : List (Call K)) :
    (∃ x, (Mat.new M G : Mat K).calls l = some x) ↔ ∀ c ∈ l, c.fits M G := by
  suffices ∀ (l h : List (Call K)) (x : Mat K), Holds M G h x →
      ((∃ y, x.calls l = some y) ↔ ∀ c ∈ l, c.fits M G) from this l [] _ (new_holds M G)
  intro l
  induction l with
  | nil => exact fun h x _ => ⟨fun _ => by simp, fun _ => ⟨x, rfl⟩⟩
  | cons c l ih =>
    intro h x hx
    simp only [Mat.calls, List.foldlM_cons, List.forall_mem_cons]
    cases hc : x.call c with
    | none =>
      refine ⟨fun ⟨_, e⟩ => (by cases e), fun e => ?_⟩
      obtain ⟨y, hy⟩ := (call_some hx c).2 e.1
      rw [hc] at hy; cases hy
    | some z =>
      have h1 := (call_some hx c).1 ⟨z, hc⟩
      have h2 := ih (c :: h) z (call_holds c hx hc)
      exact ⟨fun e => ⟨h1, h2.1 e⟩, fun e => h2.2 e.2⟩

/-- C62: after any history of calls each accessor returns what the latest call that writes
    the entry wrote, or the default.  The absorption helper writes total minus the scattering
    out of the group as stored at that moment, the diffusion helper one over three totals
    whatever was stored before, and `finalize` nu times fission. -/
theorem C62_every_accessor (M G : Nat) (l : List (Call K)) (x : Mat K)
    (h : (Mat.new M G : Mat K).calls l = some x) :
    (∀ t m g, m < M → g < G → x.get t m g = val G l.reverse t m g) ∧
    (∀ m g gp, m < M → g < G → gp < G → x.sigS g gp m = scatVal l.reverse m g gp) := by
  have := calls_holds l [] _ x (new_holds M G) h
  rw [List.append_nil] at this
  exact this.2.2.2

/-- C62: the vectorised accessors list the same entries group by group. -/
theorem C62_every_list (M G : Nat) (l : List (Call K)) (x : Mat K)
    (h : (Mat.new M G : Mat K).calls l = some x) (m : Nat) (hm : m < M) :
    (∀ t, x.getVec t m = (List.range G).map (val G l.reverse t m)) ∧
    x.getScats m = (List.range G).map fun g => (List.range G).map fun gp =>
      scatVal l.reverse m g gp := by
  have h1 := calls_holds l [] _ x (new_holds M G) h
  rw [List.append_nil] at h1
  obtain ⟨e1, -, -, e4, e5⟩ := h1
  constructor
  · intro t
    rw [Mat.getVec, e1]
    exact List.map_congr_left fun g hg => e4 t m g hm (List.mem_range.1 hg)
  · rw [Mat.getScats, e1]
    refine List.map_congr_left fun g hg => List.map_congr_left fun gp hgp => ?_
    exact e5 m g gp hm (List.mem_range.1 hg) (List.mem_range.1 hgp)

/-- C62: a vector stored with one entry per group is read back. -/
theorem C62_vector_round_trip (M G : Nat) (l : List (Call K)) (x : Mat K) (t : Tab) (m : Nat)
    (v : List K) (hv : v.length = G) (hm : m < M)
    (h : (Mat.new M G : Mat K).calls (l ++ [.vec t m v]) = some x) : x.getVec t m = v := by
  rw [(C62_every_list M G _ x h m hm).1 t]
  refine List.ext_getElem (by simp [hv]) fun i h1 h2 => ?_
  simp only [List.getElem_map, List.getElem_range, List.reverse_append, List.reverse_cons,
    List.reverse_nil, List.nil_append, List.cons_append, val, and_self, if_true]
  rw [List.getD_eq_getElem?_getD, List.getElem?_eq_getElem h2]
  rfl

/-- C62, negation of the wording "where it was not given": the diffusion helper discards a
    coefficient the user stored. -/
theorem C62_diffusion_overwritten (M G m g : Nat) (hm : m < M) (hg : g < G) (d s : K) :
    ∃ x, (Mat.new M G : Mat K).calls [.one .sigT m g s, .one .diff m g d, .diffuse] = some x ∧
      x.get .diff m g = 1 / (3 * s) := by
  obtain ⟨x, hx⟩ := (C62_defined M G
    [.one .sigT m g s, .one .diff m g d, .diffuse]).2 (by
      simp [Call.fits, hm, hg])
  refine ⟨x, hx, ?_⟩
  rw [(C62_every_accessor M G _ x hx).1 _ m g hm hg]
  simp [val]

/-- Two groups, two materials: every kind of call. -/
def sampleCalls : List (Call ℚ) :=
  [.vec .sigT 1 [1, 2], .scats 1 1 [1 / 2, 1 / 4], .one .nu 1 1 3, .one .sigF 1 1 2, .absorb,
   .finalize, .scat 1 1 0 (1 / 3), .one .sigF 1 1 5, .one .nuSigF 1 0 9, .diffuse, .down true false]

example : (∀ c ∈ sampleCalls, c.fits 2 2) ∧
    val 2 sampleCalls.reverse .sigA 1 0 = 1 / 2 ∧ val 2 sampleCalls.reverse .diff 1 1 = 1 / 6 ∧
    val 2 sampleCalls.reverse .nuSigF 1 1 = 15 ∧ val 2 sampleCalls.reverse .nuSigF 1 0 = 0 ∧
    scatVal sampleCalls.reverse 1 1 0 = 1 / 3 := by
  refine ⟨?_, by decide +kernel⟩
  simp [sampleCalls, Call.fits]

end Detran.Material
