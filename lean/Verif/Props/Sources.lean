import Verif.Model.Sources
import Mathlib.Algebra.BigOperators.Ring.Finset
import Mathlib.Algebra.BigOperators.Group.List.Lemmas
import Mathlib.Algebra.Order.Ring.Rat
import Mathlib.Tactic.Ring
import Mathlib.Tactic.LinearCombination

/-!
# C102: external sources
-/

namespace Detran.Sources

open Finset

variable {K : Type} [Field K]

/-- Specification: integral over directions of an angular function with the quadrature weights. -/
def Quad.integral (q : Quad K) (f : Nat → Nat → K) : K :=
  ∑ o ∈ range q.no, ∑ a ∈ range q.na, q.w a * f o a

/-- Specification: the norm is the reciprocal of the total weight. -/
def Quad.Normed (q : Quad K) (norm : K) : Prop := norm * q.integral (fun _ _ => 1) = 1

theorem foldlM_sum {α : Type} (l : List α) (f : α → Option K) : ∀ (v r : K),
    l.foldlM (fun v s => (f s).map fun x => v + x) v = some r →
    ∃ h : α → K, (∀ s ∈ l, f s = some (h s)) ∧ r = v + (l.map h).sum := by
  induction l with
  | nil =>
    intro v r hr
    simp only [List.foldlM_nil, Option.pure_def, Option.some.injEq] at hr
    exact ⟨fun _ => 0, by simp, by simp [hr]⟩
  | cons s l ih =>
    intro v r hr
    rw [List.foldlM_cons] at hr
    cases hs : f s with
    | none => simp [hs] at hr
    | some x =>
      simp only [hs, Option.map_some, Option.bind_eq_bind, Option.bind_some] at hr
      obtain ⟨h, h1, h2⟩ := ih _ _ hr
      have hd : ∀ t ∈ l, f t = some ((f t).getD 0) := fun t ht => by rw [h1 t ht]; rfl
      refine ⟨fun t => (f t).getD 0, ?_, ?_⟩
      · intro t ht
        rcases List.mem_cons.1 ht with rfl | ht
        · simp [hs]
        · exact hd t ht
      · rw [h2, List.map_cons, List.sum_cons, hs, Option.getD_some, add_assoc]
        congr 3
        refine List.map_congr_left fun t ht => ?_
        rw [h1 t ht]; rfl

theorem dirs_sum (q : Quad K) (F : Nat → Nat → K) :
    (q.dirs.map fun d => F d.1 d.2).sum = ∑ o ∈ range q.no, ∑ a ∈ range q.na, F o a := by
  unfold Quad.dirs
  have : ∀ (m : Nat), (((List.range m).flatMap fun o => (List.range q.na).map fun a => (o, a)).map
      fun d => F d.1 d.2).sum = ∑ o ∈ range m, ∑ a ∈ range q.na, F o a := by
    intro m
    induction m with
    | zero => simp
    | succ m ih =>
      rw [List.range_succ, List.flatMap_append, List.map_append, List.sum_append, ih, Finset.sum_range_succ]
      congr 1
      simp only [List.flatMap_cons, List.flatMap_nil, List.append_nil, List.map_map]
      have : ∀ k, ((List.range k).map ((fun d : Nat × Nat => F d.1 d.2) ∘ fun a => (m, a))).sum
          = ∑ a ∈ range k, F m a := by
        intro k
        induction k with
        | zero => simp
        | succ k ih => rw [List.range_succ, List.map_append, List.sum_append, ih, Finset.sum_range_succ]; simp
      exact this q.na
  exact this q.no

theorem mem_dirs (q : Quad K) (o a : Nat) : (o, a) ∈ q.dirs ↔ o < q.no ∧ a < q.na := by
  simp [Quad.dirs]

/-- C102: the factor is the reciprocal of the total weight: one half for weights that sum to two in one dimension, the
    reciprocal of 4π for weights that sum to 4π otherwise. -/
theorem C102_norm (q : Quad K) (pi4 : K) (hp : pi4 ≠ 0) (h2 : (2 : K) ≠ 0) (dim : Nat)
    (hw : q.integral (fun _ _ => 1) = if dim = 1 then 2 else pi4) : q.Normed (angularNorm (1 / pi4) dim) := by
  unfold Quad.Normed
  rw [hw, angularNorm]
  split
  · exact one_div_mul_cancel h2
  · exact one_div_mul_cancel hp

/-- C102: every kind of source gives the same particles per cell and group whether used by angle or by
    moment: where `source(cell, group)` is defined, `source(cell, group, angle)` is defined for every
    direction and its integral with the quadrature weights is that value. -/
theorem C102_integral (q : Quad K) (norm : K) (hn : q.Normed norm) (s : Ext K) (cell g : Nat) (v : K)
    (hv : s.moment q cell g = some v) :
    ∃ d : Nat → Nat → K,
      (∀ o < q.no, ∀ a < q.na, s.angular norm cell g (Angle.index q.na o a) = some (d o a)) ∧
      q.integral d = v := by
  have iso : ∀ x : K, q.integral (fun _ _ => x * norm) = x := by
    intro x
    unfold Quad.Normed Quad.integral at *
    simp only [mul_one] at hn
    simp_rw [← Finset.sum_mul]
    linear_combination x * hn
  cases s with
  | constant x =>
    simp only [Ext.moment, Option.some.injEq] at hv
    subst hv
    exact ⟨fun _ _ => x * norm, fun _ _ _ _ => rfl, iso x⟩
  | isotropic sp map =>
    refine ⟨fun _ _ => v * norm, fun o _ a _ => ?_, iso v⟩
    simp only [Ext.moment] at hv
    simp only [Ext.angular]
    cases h1 : map[cell]? with
    | none => simp [h1] at hv
    | some m =>
      simp only [h1, Option.bind_some] at hv ⊢
      cases h2 : at? sp m with
      | none => simp [h2] at hv
      | some row =>
        simp only [h2, Option.bind_some] at hv ⊢
        rw [hv]; rfl
  | discrete sp map =>
    simp only [Ext.moment] at hv
    have hv' : q.dirs.foldlM (fun v d => (((Ext.discrete sp map).angular norm cell g
        (Angle.index q.na d.1 d.2)).map fun x => x * q.w d.2).map fun x => v + x) 0 = some v := by
      rw [← hv]
      congr 1
      funext u d
      simp only [Ext.angular, Option.map_map]
      rfl
    obtain ⟨h, h1, h2⟩ := foldlM_sum q.dirs _ 0 v hv'
    refine ⟨fun o a => ((Ext.discrete sp map).angular norm cell g (Angle.index q.na o a)).getD 0, ?_, ?_⟩
    · intro o ho a ha
      have := h1 (o, a) ((mem_dirs q o a).2 ⟨ho, ha⟩)
      cases hx : (Ext.discrete sp map).angular norm cell g (Angle.index q.na o a) with
      | none => simp [hx] at this
      | some x => simp [hx]
    · rw [h2, zero_add]
      unfold Quad.integral
      rw [← dirs_sum q fun o a => q.w a *
        ((Ext.discrete sp map).angular norm cell g (Angle.index q.na o a)).getD 0]
      congr 1
      refine List.map_congr_left fun d hd => ?_
      have := h1 d hd
      cases hx : (Ext.discrete sp map).angular norm cell g (Angle.index q.na d.1 d.2) with
      | none => simp [hx] at this
      | some x =>
        rw [hx] at this
        simp only [Option.map_some, Option.some.injEq] at this
        rw [← this, Option.getD_some]; ring

/-- C102: a constant or isotropic source is the same in every direction, and one `norm`-th of the given
    strength. -/
theorem C102_isotropic (q : Quad K) (norm : K) (s : Ext K) (hs : s.isDiscrete = false) (cell g angle : Nat) :
    s.angular norm cell g angle = (s.moment q cell g).map (· * norm) := by
  cases s with
  | constant x => rfl
  | isotropic sp map =>
    simp only [Ext.angular, Ext.moment]
    cases map[cell]? with
    | none => rfl
    | some m =>
      simp only [Option.bind_some]
      cases at? sp m <;> rfl
  | discrete _ _ => cases hs

/-- C102: a discrete source takes, in each direction, the value given for that cell's material, the group
    and the cardinal index of the direction. -/
theorem C102_discrete (norm : K) (sp : List (List (List K))) (map : List Int) (cell g angle : Nat) (m : Nat)
    (hm : map[cell]? = some (m : Int)) (v : K) (row : List (List K)) (r : List K) (h1 : sp[m]? = some row)
    (h2 : row[g]? = some r) (h3 : r[angle]? = some v) :
    (Ext.discrete sp map).angular norm cell g angle = some v := by
  have : ¬ ((m : Int) < 0) := by omega
  simp [Ext.angular, hm, at?, h1, h2, h3, this]

/-- C102: a map entry that names no spectrum makes the source undefined there, by angle and by moment. -/
theorem C102_undefined (q : Quad K) (hq : 0 < q.no * q.na) (norm : K) (cell g angle : Nat) (m : Int)
    (map : List Int) (hm : map[cell]? = some m) :
    (∀ sp : List (List K), m < 0 ∨ (sp.length : Int) ≤ m →
      (Ext.isotropic sp map).moment q cell g = none ∧
      (Ext.isotropic sp map).angular norm cell g angle = none) ∧
    (∀ sp : List (List (List K)), m < 0 ∨ (sp.length : Int) ≤ m →
      (Ext.discrete sp map).moment q cell g = none ∧
      (Ext.discrete sp map).angular norm cell g angle = none) := by
  have key : ∀ {α : Type} (sp : List α), m < 0 ∨ (sp.length : Int) ≤ m → at? sp m = none := by
    intro α sp h
    unfold at?
    split
    · rfl
    · rw [List.getElem?_eq_none]
      omega
  refine ⟨fun sp h => ?_, fun sp h => ?_⟩
  · simp [Ext.moment, Ext.angular, hm, key sp h]
  · refine ⟨?_, by simp [Ext.angular, hm, key sp h]⟩
    simp only [Ext.moment, hm, Option.bind_some, key sp h, Option.bind_none, Option.map_none]
    have hne : q.dirs ≠ [] := by
      intro e
      have h0 : 0 < q.no := Nat.pos_of_mul_pos_right hq
      have h1 : 0 < q.na := Nat.pos_of_mul_pos_left hq
      have := (mem_dirs q 0 0).2 ⟨h0, h1⟩
      rw [e] at this
      cases this
    obtain ⟨d, l, e⟩ := List.exists_cons_of_ne_nil hne
    rw [e, List.foldlM_cons]
    rfl

theorem route_spec (qe : List (Option (Ext K))) : ∀ r : List (Ext K) × List (Ext K),
    qe.foldl (fun r o => match o with
      | none => r
      | some s => if !s.isDiscrete then (r.1 ++ [s], r.2) else (r.1, r.2 ++ [s])) r
    = (r.1 ++ (qe.filterMap id).filter (fun s => !s.isDiscrete),
       r.2 ++ (qe.filterMap id).filter (fun s => s.isDiscrete)) := by
  induction qe with
  | nil => simp
  | cons o qe ih =>
    intro r
    rw [List.foldl_cons]
    cases o with
    | none => rw [ih]; simp
    | some s =>
      cases hs : s.isDiscrete
      · rw [ih]; simp [hs]
      · rw [ih]; simp [hs]

/-- C102: the transport sweep.  In every group and cell the sweep source the solver builds from any list of
    external sources, integrated over the directions, is the sum of the strengths of all of them (null
    pointers counting nothing), the fission source and the scattering source. -/
theorem C102_sweep_total (q : Quad K) (norm : K) (hn : q.Normed norm) (qe : List (Option (Ext K)))
    (qf : Option K) (scatter fixed : K) (cell g : Nat)
    (str : Ext K → K) (hstr : ∀ s, some s ∈ qe → s.moment q cell g = some (str s))
    (hf : buildFixed q (route qe).1 qf cell g = some fixed) :
    ∃ S : Nat → Nat → K,
      (∀ o < q.no, ∀ a < q.na,
        sweep q norm norm true (route qe).2 fixed scatter g o a cell = some (S o a)) ∧
      q.integral S = ((qe.filterMap id).map str).sum + qf.getD 0 + scatter := by
  have hr := route_spec qe ([], [])
  change route qe = _ at hr
  simp only [List.nil_append] at hr
  have e1 : (route qe).1 = (qe.filterMap id).filter (fun s => !s.isDiscrete) := by rw [hr]
  have e2 : (route qe).2 = (qe.filterMap id).filter (fun s => s.isDiscrete) := by rw [hr]
  have hmem : ∀ s ∈ qe.filterMap id, s.moment q cell g = some (str s) := by
    intro s hs
    rw [List.mem_filterMap] at hs
    obtain ⟨o, ho, h⟩ := hs
    exact hstr s (by rw [← show o = some s from h]; exact ho)
  -- fixed part
  have hfix : fixed = (((qe.filterMap id).filter (fun s => !s.isDiscrete)).map str).sum + qf.getD 0 := by
    unfold buildFixed at hf
    rw [e1] at hf
    cases hx : ((qe.filterMap id).filter (fun s => !s.isDiscrete)).foldlM
        (fun v (s : Ext K) => (s.moment q cell g).map fun x => v + x) 0 with
    | none => rw [hx] at hf; cases hf
    | some x =>
      obtain ⟨h, h1, h2⟩ := foldlM_sum _ _ 0 x hx
      rw [hx] at hf
      have e3 : (((qe.filterMap id).filter (fun s => !s.isDiscrete)).map h).sum
          = (((qe.filterMap id).filter (fun s => !s.isDiscrete)).map str).sum := by
        congr 1
        refine List.map_congr_left fun s hs => ?_
        have := h1 s hs
        rw [hmem s (List.mem_of_mem_filter hs)] at this
        exact (Option.some.inj this).symm
      rw [h2, e3, zero_add] at hf
      cases qf with
      | none => simpa using hf.symm
      | some f => simpa using hf.symm
  -- discrete part
  have hd : ∀ ds : List (Ext K), (∀ s ∈ ds, s.moment q cell g = some (str s)) → ∀ v : Nat → Nat → K,
      ∃ S : Nat → Nat → K, (∀ o < q.no, ∀ a < q.na,
        ds.foldlM (fun v (s : Ext K) => (s.angular norm cell g (Angle.index q.na o a)).map fun x => v + x) (v o a)
          = some (S o a)) ∧ q.integral S = q.integral v + (ds.map str).sum := by
    intro ds
    induction ds with
    | nil => intro _ v; exact ⟨v, fun _ _ _ _ => rfl, by simp⟩
    | cons s ds ih =>
      intro hds v
      obtain ⟨d, d1, d2⟩ := C102_integral q norm hn s cell g (str s) (hds s (by simp))
      obtain ⟨S, s1, s2⟩ := ih (fun t ht => hds t (by simp [ht])) (fun o a => v o a + d o a)
      refine ⟨S, fun o ho a ha => ?_, ?_⟩
      · rw [List.foldlM_cons, d1 o ho a ha]
        exact s1 o ho a ha
      · rw [s2, List.map_cons, List.sum_cons]
        have : q.integral (fun o a => v o a + d o a) = q.integral v + q.integral d := by
          unfold Quad.integral
          rw [← Finset.sum_add_distrib]
          refine Finset.sum_congr rfl fun o _ => ?_
          rw [← Finset.sum_add_distrib]
          exact Finset.sum_congr rfl fun a _ => by ring
        rw [this, d2]; ring
  obtain ⟨S, s1, s2⟩ := hd _ (fun s hs => hmem s (List.mem_of_mem_filter hs))
    (fun _ _ => (fixed + scatter) * norm)
  refine ⟨S, fun o ho a ha => ?_, ?_⟩
  · unfold sweep
    rw [if_pos rfl, e2]
    exact s1 o ho a ha
  · have iso : q.integral (fun _ _ => (fixed + scatter) * norm) = fixed + scatter := by
      unfold Quad.Normed Quad.integral at *
      simp only [mul_one] at hn
      simp_rw [← Finset.sum_mul]
      linear_combination (fixed + scatter) * hn
    rw [s2, iso, hfix]
    have split : ((qe.filterMap id).map str).sum
        = (((qe.filterMap id).filter (fun s => !s.isDiscrete)).map str).sum
          + (((qe.filterMap id).filter (fun s => s.isDiscrete)).map str).sum := by
      generalize qe.filterMap id = l
      induction l with
      | nil => simp
      | cons s l ih =>
        cases hs : s.isDiscrete
        · simp [hs, ih, add_assoc]
        · simp [hs, ih, add_left_comm]
    rw [split]; ring

/-- C102: with the discrete sources switched off a direction gets the fixed and scattering sources alone. -/
theorem C102_flag (q : Quad K) (norm mtod : K) (ds : List (Ext K)) (fixed scatter : K) (g o a cell : Nat) :
    sweep q norm mtod false ds fixed scatter g o a cell = some ((fixed + scatter) * mtod) := rfl

/-! ## A concrete case: two octants, two angles each, weights 1/4 and 3/4, norm 1/2 -/

def demoQuad : Quad ℚ := ⟨2, 2, fun a => if a = 0 then 1 / 4 else 3 / 4⟩

def demoSources : List (Option (Ext ℚ)) :=
  [some (.isotropic [[1, 2], [3, 4]] [0, 1, 1]), none, some (.discrete [[[1, 2, 3, 4], [0, 0, 8, 0]]] [0, 0, 0]),
   some (.constant 5)]

example : demoQuad.Normed (1 / 2) := by unfold Quad.Normed; decide +kernel

example : angularNorm (0 : ℚ) 1 = 1 / 2 := rfl

example : (demoSources.filterMap id).map (fun s => s.moment demoQuad 2 1) = [some 4, some 2, some 5] := by
  decide +kernel

example : buildFixed demoQuad (route demoSources).1 (some 7) 2 1 = some 16 ∧
    sweep demoQuad (1 / 2) (1 / 2) true (route demoSources).2 16 1 1 1 0 2 = some (17 / 2 + 8) := by
  decide +kernel

end Detran.Sources
