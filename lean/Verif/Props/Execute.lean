import Verif.Model.Execute
import Verif.Props.Managers
import Verif.Props.Sources

/-!
# C115: running the executable solves the problem described in the input
-/

namespace Detran.Exec

open Detran.Util Detran.Parser Detran.Sources Detran.Managers

variable {K E Dn : Type} [Field K] [AddCommMonoid E]

/-- An input for a fixed-source problem: dimension of the mesh, number of groups, problem type, scaling factor and a
    source are there with their types. -/
structure Fixed (w : World K E Dn) (d : InputDB K) (dim : Nat) (G : Nat) (multiply : Bool) (k : K) (s : Ext K) : Prop where
  dimension : d.dataInt.find "dimension" = some (dim : Int)
  range : dim = 1 ∨ dim = 2 ∨ dim = 3
  mesh : w.meshDim = dim
  groups : d.dataInt.find "number_groups" = some (G : Int)
  type : d.dataStr.find "problem_type" = some (if multiply then "multiply" else "fixed")
  scale : (d.check "fixed_scaling_factor" = false ∧ k = 1) ∨ d.dataDbl.find "fixed_scaling_factor" = some k
  source : describe d (G : Int) = .ok s
  quad : w.quadOk = true
  bc : w.bcOk = true

/-- **C115, full statement.** For a fixed-source input whose options a solver can be set with, the flux at the end is what
    that solver makes of the source in the input, from a zero flux. -/
def C115Claim : Prop :=
  ∀ (w : World ℚ ℚ ℚ) (d : InputDB ℚ) (dim G : Nat) (mu : Bool) (k : ℚ) (s : Ext ℚ), Fixed w d dim G mu k s →
    ∀ m, ((Mgr.fresh w.P dim mu false).setup w.P (w.opts d) : Ret ℚ × Mgr (Ext ℚ) ℚ ℚ) = (.unit, m) →
    ∀ m' sv, (m.setSource (some s)).setSolver (w.opts d) = (Ret.flag (K := ℚ) true, m') → m'.solver = some sv →
    ∃ msgs, main w d = .exit 0 msgs (some (w.P.run sv.kind mu k (w.P.src s) 0))

/-! ## What happens -/

theorem setup_not_ready (P : Phys K (Ext K) E Dn) (dim : Nat) (mu : Bool) (db : Db) :
    ((Mgr.fresh P dim mu false).setup P db : Ret K × Mgr (Ext K) E Dn).1 = .threw ∨
    (((Mgr.fresh P dim mu false).setup P db : Ret K × Mgr (Ext K) E Dn).1 = .unit ∧
      ((Mgr.fresh P dim mu false).setup P db : Ret K × Mgr (Ext K) E Dn).2.ready = false ∧
      ((Mgr.fresh P dim mu false).setup P db : Ret K × Mgr (Ext K) E Dn).2.phi = 0) := by
  rcases setup_cases (K := K) P db (Mgr.fresh P dim mu false) with ⟨h1, h2, -⟩ | ⟨h1, -⟩
  · exact Or.inr ⟨h1, h2, (setup_phi P db (Mgr.fresh P dim mu false) h1).1⟩
  · exact Or.inl h1

/-- The fixed-source branch: an exception, undefined behaviour, or no solve and a zero flux. -/
theorem solveFixed_cases (w : World K E Dn) (d : InputDB K) (dim : Nat) (G : Int) (type : String) :
    (∃ e, solveFixed w d dim G type = .error e) ∨
    solveFixed w d dim G type = .ok ((if d.check "source_type" then [] else [.noSourceType]) ++ [.notReady], 0) := by
  unfold solveFixed
  cases hk : scaling d with
  | error e => exact Or.inl ⟨e, rfl⟩
  | ok k =>
    cases hi : insist (w.meshDim = dim) with
    | error e => exact Or.inl ⟨e, by simp only [bind, Except.bind, hi]⟩
    | ok u =>
      simp only [bind, Except.bind, hi]
      rcases setup_not_ready w.P dim (type = "multiply") (w.opts d) with h | ⟨h1, h2, h3⟩
      · generalize ((Mgr.fresh w.P dim (type = "multiply") false).setup w.P (w.opts d) : Ret K × Mgr (Ext K) E Dn) = t at h ⊢
        obtain ⟨r, m⟩ := t
        simp only at h
        subst h
        exact Or.inl ⟨_, rfl⟩
      · generalize ((Mgr.fresh w.P dim (type = "multiply") false).setup w.P (w.opts d) : Ret K × Mgr (Ext K) E Dn) = t at h1 h2 h3 ⊢
        obtain ⟨r, m⟩ := t
        simp only at h1 h2 h3
        subst h1
        simp only
        cases hd : describe d G with
        | error e => exact Or.inl ⟨e, rfl⟩
        | ok s =>
          have : (m.setSource (some s)).solve w.P k = (.flag false, m.setSource (some s)) := by
            exact if_pos h2
          simp only [this]
          right
          show Except.ok (_, m.phi) = _
          rw [h3]

/-- **C115 (fixed-source problems are never solved).** Unless the problem type is `eigenvalue`, a run that does not stop
    with an exception or undefined behaviour reports that no solver was set, ends with exit code zero and a flux that is
    zero everywhere, whatever the source, the materials and the options. -/
theorem C115_fixed_unsolved (w : World K E Dn) (d : InputDB K) (h : d.dataStr.find "problem_type" ≠ some "eigenvalue") :
    main w d = .ub ∨ main w d = .exit 0 [.exception] none ∨
    ∃ msgs, main w d = .exit 0 (msgs ++ [.notReady]) (some 0) := by
  have key : (∃ e, execute w d = .error e) ∨ ∃ msgs, execute w d = .ok (msgs ++ [.notReady], 0) := by
    unfold execute
    cases hd : getInt d "dimension" with
    | error e => exact Or.inl ⟨e, rfl⟩
    | ok dim =>
      cases ht : problemType d with
      | error e => exact Or.inl ⟨e, by simp only [bind, Except.bind]⟩
      | ok type =>
        cases hG : getInt d "number_groups" with
        | error e => exact Or.inl ⟨e, by simp only [bind, Except.bind]⟩
        | ok G =>
          have hne : type ≠ "eigenvalue" := by
            rintro rfl
            unfold problemType at ht
            split at ht
            · unfold getStr InputDB.get at ht
              cases hf : d.dataStr.find "problem_type" with
              | none => rw [hf] at ht; cases ht
              | some t =>
                rw [hf] at ht
                cases ht
                exact h hf
            · injection ht with ht
              revert ht
              decide
          simp only [bind, Except.bind, hne, ne_eq, not_false_eq_true, if_true]
          rcases solveFixed_cases w d (if dim = 1 then 1 else if dim = 2 then 2 else 3) G type with h | h
          · exact Or.inl h
          · exact Or.inr ⟨_, h⟩
  unfold main
  rcases key with ⟨e, h⟩ | ⟨msgs, h⟩
  · cases e with
    | insist => rw [h]; exact Or.inr (Or.inl rfl)
    | ub => rw [h]; exact Or.inl rfl
  · rw [h]
    exact Or.inr (Or.inr ⟨msgs, rfl⟩)

/-- **C115 (exit code).** The exit code is zero however a run ends. -/
theorem C115_exit_zero (w : World K E Dn) (d : InputDB K) (code : Int) (msgs : List (Msg K)) (f : Option E)
    (h : main w d = .exit code msgs f) : code = 0 := by
  unfold main at h
  split at h
  · cases h; rfl
  · cases h
  · cases h; rfl

/-- **C115 (unknown problem types).** A problem type other than the three documented ones is treated as `fixed`, without
    the message there is for it. -/
theorem C115_unknown_type (w : World K E Dn) (d : InputDB K) (dim : Nat) (G : Int) (t : String) (h : t ≠ "multiply") :
    solveFixed w d dim G t = solveFixed w d dim G "fixed" := by
  have h1 : decide (t = "multiply") = false := decide_eq_false h
  have h2 : decide ("fixed" = "multiply") = false := by decide
  unfold solveFixed
  rw [h1, h2]

/-- **C115 (missing source).** Without a source type the message says that the solve is skipped; what follows is
    undefined, if the set-up does not throw before. -/
theorem C115_no_source (d : InputDB K) (G : Int) (h : d.check "source_type" = false) : describe d G = .error .ub := by
  have : d.dataStr.find "source_type" = none := by
    unfold InputDB.check at h
    cases hf : d.dataStr.find "source_type" with
    | none => rfl
    | some v =>
      rw [hf] at h
      simp at h
  unfold describe getStr InputDB.get
  rw [this]
  rfl

/-- **C115 (scaling).** The scaling factor is the one given, and one if none is. -/
theorem C115_scaling (w : World K E Dn) (d : InputDB K) (dim G : Nat) (mu : Bool) (k : K) (s : Ext K)
    (h : Fixed w d dim G mu k s) : scaling d = .ok k := by
  rcases h.scale with ⟨hc, rfl⟩ | hf
  · rw [scaling, hc]
    rfl
  · have hc : d.check "fixed_scaling_factor" = true := by
      unfold InputDB.check
      rw [hf]
      simp
    rw [scaling, hc, if_pos rfl]
    unfold getDbl InputDB.get
    rw [hf]
    rfl

/-- **C115 (strength).** A constant source needs a strength: the default of one is never used. -/
theorem C115_strength (d : InputDB K) (G : Int) (h : d.dataStr.find "source_type" = some "constant") :
    describe d G = match d.dataDbl.find "source_strength" with
      | some s => .ok (.constant s)
      | none => .error .ub := by
  have hc : d.check "source_type" = true := by
    unfold InputDB.check
    rw [h]
    simp
  unfold describe getStr getDbl InputDB.get
  rw [h]
  simp only [orUB, bind, Except.bind, if_true, hc]
  cases d.dataDbl.find "source_strength" <;> rfl

/-- **C115 (the source, partial).** The source made from an input is the one described there: a constant source has the
    strength given in every cell and group; in an isotropic one a cell with spectrum `m` has in group `g` entry
    `m * G + g` of the spectra.  What is missing is that it is used (`C115_fixed_unsolved`). -/
theorem C115_source_partial (d : InputDB K) (G : Nat) (hG : 0 < G) (s : Ext K) (h : describe d (G : Int) = .ok s)
    (q : Quad K) (cell g : Nat) (hg : g < G) :
    (d.dataStr.find "source_type" = some "constant" ∧ d.dataDbl.find "source_strength" = s.moment q cell g) ∨
    (d.dataStr.find "source_type" = some "isotropic" ∧ ∃ v map, d.dataVecDbl.find "source_spectra" = some v ∧
      d.dataVecInt.find "source_spectra_map" = some map ∧
      ∀ m : Nat, map[cell]? = some (m : Int) → m < v.length / G → s.moment q cell g = v[m * G + g]?) := by
  unfold describe at h
  cases ht : d.dataStr.find "source_type" with
  | none =>
    unfold getStr InputDB.get at h
    rw [ht] at h
    cases h
  | some t =>
    have h1 : getStr d "source_type" = .ok t := by
      unfold getStr InputDB.get
      rw [ht]
      rfl
    rw [h1] at h
    simp only [bind, Except.bind] at h
    by_cases hc : t = "constant"
    · subst hc
      left
      have hd := C115_strength d (G : Int) ht
      have hs : describe d (G : Int) = .ok s := by
        unfold describe
        rw [h1]
        simpa only [bind, Except.bind] using h
      rw [hs] at hd
      cases hf : d.dataDbl.find "source_strength" with
      | none => rw [hf] at hd; cases hd
      | some x =>
        rw [hf] at hd
        cases hd
        exact ⟨rfl, rfl⟩
    · rw [if_neg hc] at h
      by_cases hi : t = "isotropic"
      · subst hi
        right
        refine ⟨rfl, ?_⟩
        rw [if_pos rfl] at h
        cases hk : insist (d.check "source_spectra") with
        | error e => rw [hk] at h; cases h
        | ok u =>
          rw [hk] at h
          simp only at h
          unfold getDbls getInts InputDB.get at h
          cases hv : d.dataVecDbl.find "source_spectra" with
          | none => rw [hv] at h; cases h
          | some v =>
            rw [hv] at h
            simp only [orUB] at h
            have hG0 : ¬ (G : Int) = 0 := by omega
            have hG1 : ¬ (G : Int) < 0 := by omega
            rw [if_neg hG0, if_neg hG1] at h
            cases hk2 : insist (d.check "source_spectra_map") with
            | error e => rw [hk2] at h; cases h
            | ok u2 =>
              rw [hk2] at h
              simp only at h
              cases hm : d.dataVecInt.find "source_spectra_map" with
              | none => rw [hm] at h; cases h
              | some map =>
                rw [hm] at h
                simp only [pure, Except.pure, Int.toNat_natCast] at h
                refine ⟨v, map, rfl, rfl, fun m hmc hml => ?_⟩
                cases h
                have hlt : m * G + g < v.length := by
                  have h2 : (m + 1) * G ≤ v.length := (Nat.le_div_iff_mul_le hG).1 hml
                  have h3 : (m + 1) * G = m * G + G := by ring
                  omega
                simp only [Ext.moment, hmc, Option.bind_some, at?]
                rw [if_neg (by omega : ¬ ((m : Int) < 0))]
                simp [hml, hg, hlt]
      · rw [if_neg hi] at h
        cases h

/-- **C115 (eigenvalue problems, partial).** With problem type `eigenvalue` the eigenvalue solver asked for is run on the
    state, and flux and eigenvalue reported are its; if the manager cannot be made there is an exception.  What is
    missing: an eigenvalue solver that is refused is not reported, the run ends with exit code zero and eigenvalue zero. -/
theorem C115_eigen_partial (w : World K E Dn) (d : InputDB K) (dim G : Nat) (hr : dim = 1 ∨ dim = 2 ∨ dim = 3)
    (hd : d.dataInt.find "dimension" = some (dim : Int)) (hG : d.dataInt.find "number_groups" = some (G : Int))
    (ht : d.dataStr.find "problem_type" = some "eigenvalue") (hm : w.meshDim = dim) :
    main w d =
      match (eigenManager w.P (w.opts d) dim : Option (Mgr (Ext K) E Dn)) with
      | none => .exit 0 [.exception] none
      | some m =>
        match eigenChoice (w.opts d) (discOf (w.opts d)) with
        | none => .exit 0 [.eigenvalue 0] (some 0)
        | some kind => .exit 0 [.eigenvalue (w.eig kind (0, 0)).2] (some (w.eig kind (0, 0)).1) := by
  have hc : d.check "problem_type" = true := by
    unfold InputDB.check
    rw [ht]
    simp
  have hp : problemType d = .ok "eigenvalue" := by
    unfold problemType getStr InputDB.get
    rw [hc, ht]
    rfl
  have h1 : getInt d "dimension" = .ok (dim : Int) := by
    unfold getInt InputDB.get
    rw [hd]
    rfl
  have h2 : getInt d "number_groups" = .ok (G : Int) := by
    unfold getInt InputDB.get
    rw [hG]
    rfl
  have hD : (if (dim : Int) = 1 then 1 else if (dim : Int) = 2 then 2 else 3) = dim := by
    rcases hr with rfl | rfl | rfl <;> rfl
  have hi : insist (decide (w.meshDim = dim)) = .ok () := by
    rw [decide_eq_true hm]
    rfl
  have he : execute w d = solveEigen w d dim := by
    unfold execute
    rw [hp, h1, h2]
    simp only [bind, Except.bind, ne_eq, not_true_eq_false, if_false]
    rw [hD]
  unfold main
  rw [he, solveEigen, hi]
  simp only [bind, Except.bind]
  cases hem : (eigenManager w.P (w.opts d) dim : Option (Mgr (Ext K) E Dn)) with
  | none => rfl
  | some m =>
    obtain ⟨hphi, hdisc⟩ : m.phi = 0 ∧ m.disc = discOf (w.opts d) := by
      unfold eigenManager at hem
      rcases setup_cases (K := K) w.P (w.opts d) (Mgr.fresh w.P dim false true) with ⟨e1, e2, e3⟩ | ⟨e1, -⟩
      · have e4 := (setup_phi w.P (w.opts d) (Mgr.fresh w.P dim false true) e1).1
        have e5 := (setup_keeps (K := K) w.P (w.opts d) (Mgr.fresh w.P dim false true)).2.2.1
        generalize ((Mgr.fresh w.P dim false true).setup w.P (w.opts d) : Ret K × Mgr (Ext K) E Dn) = t at *
        obtain ⟨r, m1⟩ := t
        simp only at e1 e4 e5
        subst e1
        simp only at hem
        have k := setSolver_keeps (K := K) (w.opts d) m1
        generalize (m1.setSolver (w.opts d) : Ret K × Mgr (Ext K) E Dn) = t at *
        obtain ⟨r, m2⟩ := t
        have hm2 : m2 = m := by
          cases r <;> first | (simp only at hem; cases hem; rfl) | (cases hem)
        subst hm2
        exact ⟨k.2.2.2.1.trans e4, k.2.1.trans e5⟩
      · generalize ((Mgr.fresh w.P dim false true).setup w.P (w.opts d) : Ret K × Mgr (Ext K) E Dn) = t at *
        obtain ⟨r, m1⟩ := t
        simp only at e1
        subst e1
        cases hem
    simp only [hdisc, hphi]
    cases eigenChoice (w.opts d) (discOf (w.opts d)) <;> rfl

/-! ## A concrete input -/

/-- Data of the examples: a solver that halves its source. -/
def exWorld : World ℚ ℚ ℚ where
  P := ⟨fun s => match s with | .constant x => x | _ => 0, 0, id, id, fun _ _ _ q _ => q / 2, fun a b => a - b⟩
  eig := fun _ x => (x.1 + 1, 3)
  quadOk := true
  bcOk := true
  meshDim := 2

/-- A fixed-source input. -/
def exInput (type : String) : InputDB ℚ :=
  ⟨[("dimension", 2), ("number_groups", 1)], [("source_strength", 4)], [], [],
   [("problem_type", type), ("source_type", "constant")], []⟩

/-- It is proper. -/
theorem ex_fixed : Fixed exWorld (exInput "fixed") 2 1 false 1 (.constant 4) where
  dimension := by decide +kernel
  range := Or.inr (Or.inl rfl)
  mesh := rfl
  groups := by decide +kernel
  type := by decide +kernel
  scale := Or.inl ⟨by decide +kernel, rfl⟩
  source := (C115_strength _ _ (by decide +kernel)).trans rfl
  quad := rfl
  bc := rfl

/-- **C115.** The full statement fails. -/
theorem C115_claim_fails : ¬ C115Claim := by
  intro h
  have e1 : ((Mgr.fresh exWorld.P 2 false false).setup exWorld.P (exWorld.opts (exInput "fixed")) :
      Ret ℚ × Mgr (Ext ℚ) ℚ ℚ).1 = .unit := by decide +kernel
  have e2 : ((((Mgr.fresh exWorld.P 2 false false).setup exWorld.P (exWorld.opts (exInput "fixed")) :
      Ret ℚ × Mgr (Ext ℚ) ℚ ℚ).2.setSource (some (.constant 4))).setSolver (exWorld.opts (exInput "fixed")) :
      Ret ℚ × Mgr (Ext ℚ) ℚ ℚ).1 = .flag true := by decide +kernel
  have e3 : ((((Mgr.fresh exWorld.P 2 false false).setup exWorld.P (exWorld.opts (exInput "fixed")) :
      Ret ℚ × Mgr (Ext ℚ) ℚ ℚ).2.setSource (some (.constant 4))).setSolver (exWorld.opts (exInput "fixed")) :
      Ret ℚ × Mgr (Ext ℚ) ℚ ℚ).2.solver.isSome = true := by decide +kernel
  obtain ⟨sv, hsv⟩ := Option.isSome_iff_exists.1 e3
  obtain ⟨msgs, hm⟩ := h exWorld (exInput "fixed") 2 1 false 1 (.constant 4) ex_fixed _ (Prod.ext e1 rfl) _ sv
    (Prod.ext e2 rfl) hsv
  have hne : (exInput "fixed").dataStr.find "problem_type" ≠ some "eigenvalue" := by decide +kernel
  have hr : exWorld.P.run sv.kind false 1 (exWorld.P.src (.constant 4)) 0 = 2 := by
    show (4 : ℚ) / 2 = 2
    norm_num
  rw [hr] at hm
  rcases C115_fixed_unsolved exWorld (exInput "fixed") hne with h | h | ⟨msgs', h⟩
  · rw [h] at hm; cases hm
  · rw [h] at hm; cases hm
  · rw [h] at hm
    injection hm with _ _ hf
    injection hf with hf
    norm_num at hf

/-- The run of the example. -/
example : (match main exWorld (exInput "fixed") with
    | .exit c m f => (c, m, f)
    | .ub => (1, [], none)) = (0, [.notReady], some 0) := by decide +kernel

/-- The same input as an eigenvalue problem. -/
example : (match main exWorld (exInput "eigenvalue") with
    | .exit c m f => (c, m, f)
    | .ub => (1, [], none)) = (0, [.eigenvalue 3], some 1) := by decide +kernel

/-- Two spectra of two groups for three cells. -/
example : (match describe (K := ℚ) ⟨[], [], [("source_spectra_map", [0, 1, 1])], [("source_spectra", [1, 2, 3, 4])],
      [("source_type", "isotropic")], []⟩ 2 with
    | .ok (.isotropic sp m) => some (sp, m)
    | _ => none) = some ([[1, 2], [3, 4]], [0, 1, 1]) := by decide +kernel

end Detran.Exec
