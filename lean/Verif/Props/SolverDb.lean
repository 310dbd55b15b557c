import Verif.Model.SolverDb
import Verif.Props.Util

/-!
# C127: solvers are made with what is in the input
-/

namespace Detran.SolverDb

open Detran.Util Detran.EigenSolve

variable {K : Type} [Field K]

/-! ## Reading -/

/-- The two databases hold the same under the keys `S`. -/
def AgreeOn (S : String → Prop) (b c : InputDB K) : Prop := ∀ k, S k → ∀ t, b.get t k = c.get t k

theorem check_congr {b c : InputDB K} {k : String} (h : ∀ t, b.get t k = c.get t k) : b.check k = c.check k := by
  rw [Bool.eq_iff_iff, check_iff, check_iff]
  simp only [h]

theorem read_congr {b c : InputDB K} {k : String} (h : ∀ t, b.get t k = c.get t k) (t : Ty) (x : t.Val K) :
    read b t k x = read c t k x := by
  unfold read
  rw [check_congr h, h]

theorem readStr_congr {b c : InputDB K} {k : String} (h : ∀ t, b.get t k = c.get t k) (x : String) :
    readStr b k x = readStr c k x := read_congr h .str x

theorem readInt_congr {b c : InputDB K} {k : String} (h : ∀ t, b.get t k = c.get t k) (x : Int) :
    readInt b k x = readInt c k x := read_congr h .int x

theorem readDbl_congr {b c : InputDB K} {k : String} (h : ∀ t, b.get t k = c.get t k) (x : K) :
    readDbl b k x = readDbl c k x := read_congr h .dbl x

theorem readOpt_congr {b c : InputDB K} {k : String} (h : ∀ t, b.get t k = c.get t k) :
    readOpt b k = readOpt c k := by
  unfold readOpt
  rw [check_congr h, h]

/-- Keys of the settings of a solver. -/
def settingKey (pre k : String) : Prop := k = pre ++ "_max_iters" ∨ k = pre ++ "_tolerance" ∨ k = pre ++ "_print_level"

theorem settings_congr {b c : InputDB K} {pre : String} (h : AgreeOn (settingKey pre) b c) :
    settings b pre = settings c pre := by
  unfold settings
  rw [readInt_congr (h _ (Or.inl rfl)), readDbl_congr (h _ (Or.inr (Or.inl rfl))), readInt_congr (h _ (Or.inr (Or.inr rfl)))]

/-- Keys the creator of linear solvers reads. -/
def linKey (k : String) : Prop := k ∈ linearKeys.map Prod.snd

/-- Keys the creator of eigenvalue solvers reads. -/
def eigKey (k : String) : Prop := k ∈ eigenKeys.map Prod.snd

theorem typed_congr {keys : List (Ty × String)} {b c : InputDB K} (h : AgreeOn (· ∈ keys.map Prod.snd) b c) :
    typed keys b = typed keys c := by
  unfold typed
  rw [Bool.eq_iff_iff, List.all_eq_true, List.all_eq_true]
  refine forall₂_congr fun x hx => ?_
  have := h x.2 (List.mem_map_of_mem hx)
  rw [check_congr this, this]

theorem createLinear_congr {b c : InputDB K} (h : AgreeOn linKey b c) :
    createLinear (some (view b)) = createLinear (some (view c)) := by
  have L1 : ∀ k x, linKey k → look (some (view b)) (·.str k) x = look (some (view c)) (·.str k) x :=
    fun k x hk => congrArg (fun o : Option String => o.getD x) (h k hk .str)
  have L2 : ∀ k x, linKey k → look (some (view b)) (·.int k) x = look (some (view c)) (·.int k) x :=
    fun k x hk => congrArg (fun o : Option Int => o.getD x) (h k hk .int)
  have L3 : ∀ k x, linKey k → look (some (view b)) (·.dbl k) x = look (some (view c)) (·.dbl k) x :=
    fun k x hk => congrArg (fun o : Option K => o.getD x) (h k hk .dbl)
  unfold createLinear
  simp only [L1 "linear_solver_type" _ (by simp [linKey, linearKeys]),
    L3 "linear_solver_atol" _ (by simp [linKey, linearKeys]),
    L3 "linear_solver_rtol" _ (by simp [linKey, linearKeys]), L2 "linear_solver_maxit" _ (by simp [linKey, linearKeys]),
    L2 "linear_solver_monitor_level" _ (by simp [linKey, linearKeys]),
    L2 "linear_solver_monitor_diverge" _ (by simp [linKey, linearKeys]),
    L3 "linear_solver_richardson_omega" _ (by simp [linKey, linearKeys]),
    L3 "linear_solver_sor_omega" _ (by simp [linKey, linearKeys]),
    L2 "linear_solver_gmres_restart" _ (by simp [linKey, linearKeys])]

theorem create_congr {h h' : Store K} {p p' : Nat} {b c : InputDB K} (hb : h p = some b) (hc : h' p' = some c)
    (ag : AgreeOn linKey b c) : create h p = create h' p' := by
  unfold create
  rw [hb, hc]
  dsimp only
  rw [typed_congr (keys := linearKeys) ag, createLinear_congr ag]

theorem createEig_congr {b c : InputDB K} (h : AgreeOn eigKey b c) :
    createEig (some b) = createEig (some c) := by
  have L1 : ∀ k x, eigKey k → look (some (view b)) (·.str k) x = look (some (view c)) (·.str k) x :=
    fun k x hk => congrArg (fun o : Option String => o.getD x) (h k hk .str)
  have L2 : ∀ k x, eigKey k → look (some (view b)) (·.int k) x = look (some (view c)) (·.int k) x :=
    fun k x hk => congrArg (fun o : Option Int => o.getD x) (h k hk .int)
  have L3 : ∀ k x, eigKey k → look (some (view b)) (·.dbl k) x = look (some (view c)) (·.dbl k) x :=
    fun k x hk => congrArg (fun o : Option K => o.getD x) (h k hk .dbl)
  unfold createEig
  rw [show (some b).all (typed eigenKeys) = (some c).all (typed eigenKeys) from typed_congr (keys := eigenKeys) h]
  have : createEigen ((some b).map view) = createEigen ((some c).map view) := by
    unfold createEigen
    simp only [Option.map_some]
    simp only [L1 "eigen_solver_type" _ (by simp [eigKey, eigenKeys]),
      L3 "eigen_solver_tol" _ (by simp [eigKey, eigenKeys]), L2 "eigen_solver_maxit" _ (by simp [eigKey, eigenKeys]),
      L2 "eigen_solver_monitor_level" _ (by simp [eigKey, eigenKeys]),
      L2 "eigen_solver_subspace_size" _ (by simp [eigKey, eigenKeys])]
  rw [this]

theorem get_put_ne (b : InputDB K) (t' : Ty) (key : String) (v : t'.Val K) (t : Ty) (k : String) (h : key ≠ k) :
    (b.put t' key v).get t k = b.get t k :=
  C05_put_isolated b ⟨t', key, v⟩ t k (Or.inr h)

theorem get_put_ty (b : InputDB K) (t' : Ty) (key : String) (v : t'.Val K) (t : Ty) (k : String) (h : t' ≠ t) :
    (b.put t' key v).get t k = b.get t k :=
  C05_put_isolated b ⟨t', key, v⟩ t k (Or.inl h)

theorem get_put_same (b : InputDB K) (t : Ty) (key : String) (v : t.Val K) : (b.put t key v).get t key = some v := by
  have := get_put b ⟨t, key, v⟩ t key
  simpa using this

theorem check_put (b : InputDB K) (t : Ty) (key : String) (v : t.Val K) : (b.put t key v).check key = true :=
  (check_iff _ _).2 ⟨t, by rw [get_put_same]; rfl⟩

theorem check_false {b : InputDB K} {k : String} (h : b.check k = false) (t : Ty) : b.get t k = none := by
  by_contra hn
  have : b.check k = true := (check_iff b k).2 ⟨t, Option.isSome_iff_ne_none.2 hn⟩
  rw [h] at this
  exact absurd this (by simp)

theorem set_same (h : Store K) (a : Nat) (b : InputDB K) : h.set a b a = some b := by simp [Store.set]

theorem set_ne (h : Store K) (a : Nat) (b : InputDB K) (p : Nat) (hp : p ≠ a) : h.set a b p = h p := by
  simp [Store.set, hp]

/-! ## What a solver is made with -/

/-- Specification.  The linear solver an input asks for: the one its database under `key` describes, or GMRES with restart
    30 and the tolerance, limit and print level in the input. -/
def wanted (h : Store K) (b : InputDB K) (key pre : String) : Except Fail (LinSolver K) :=
  match settings b pre with
  | none => .error .ub
  | some (t, m, l) =>
    if b.check key then
      match (b.get .db key : Option Nat) with
      | some p => create h p
      | none => .error .ub
    else .ok ⟨.gmres 30, t, t, m, false, l⟩

theorem create_made (h : Store K) (p : Nat) (s : K × Int × Int) (hp : h p = some (madeDb s)) :
    create h p = .ok ⟨.gmres 30, s.1, s.1, s.2.1, false, s.2.2⟩ := by
  unfold create
  rw [hp]
  dsimp only
  have e : ∀ (t : Ty) (k : String), (InputDB.empty K).get t k = none := by intro t k; cases t <;> rfl
  have ht : typed linearKeys (madeDb s) = true := by rfl
  have hc : createLinear (some (view (madeDb s))) = some ⟨.gmres 30, s.1, s.1, s.2.1, false, s.2.2⟩ := by rfl
  rw [ht, hc]
  rfl

theorem linear_eq (key pre : String) (h : Store K) (a new : Nat) (b : InputDB K) (ha : h a = some b) (hn : h new = none) :
    (linear key pre h a new).1 = wanted h b key pre ∧
    (linear key pre h a new).2 = match settings b pre with
      | none => h
      | some s => if b.check key then h else (h.set new (madeDb s)).set a (b.put .db key new) := by
  have hne : new ≠ a := by rintro rfl; rw [ha] at hn; cases hn
  unfold linear own wanted
  rw [ha]
  dsimp only
  cases hs : settings b pre with
  | none => exact ⟨rfl, rfl⟩
  | some s =>
    dsimp only
    cases hk : b.check key with
    | true =>
      simp only [if_true]
      cases hp : (b.get .db key : Option Nat) with
      | none => exact ⟨rfl, rfl⟩
      | some p => exact ⟨rfl, rfl⟩
    | false =>
      simp only [Bool.false_eq_true, if_false]
      refine ⟨?_, trivial⟩
      rw [create_made _ _ s]
      rw [set_ne _ _ _ _ hne, set_same]

/-- The keys under which solvers leave databases, with the prefix of the settings they come from. -/
def solverKeys : List (String × String) := [("inner_solver_db", "inner"), ("outer_solver_db", "outer")]

/-- Specification of what making a solver from the input at `a` does to the databases there are: the others keep
    everything; the input keeps everything except that, under keys of `ks` where it had nothing, it may now hold a new
    database with its own settings. -/
structure Grown (ks : List (String × String)) (a : Nat) (h h' : Store K) : Prop where
  others : ∀ p, p ≠ a → ∀ b, h p = some b → h' p = some b
  input : ∀ b, h a = some b → ∃ b', h' a = some b' ∧ (∀ t k, k ∉ ks.map Prod.fst → b'.get t k = b.get t k) ∧
    ∀ kp ∈ ks, (∀ t, b'.get t kp.1 = b.get t kp.1) ∨
      (b.check kp.1 = false ∧ ∃ n s, h n = none ∧ settings b kp.2 = some s ∧ h' n = some (madeDb s) ∧
        (b'.get .db kp.1 : Option Nat) = some n ∧ ∀ t, t ≠ .db → b'.get t kp.1 = none)

theorem Grown.refl (ks : List (String × String)) (a : Nat) (h : Store K) : Grown ks a h h :=
  ⟨fun _ _ _ hb => hb, fun b hb => ⟨b, hb, fun _ _ _ => rfl, fun _ _ => Or.inl fun _ => rfl⟩⟩

theorem Grown.mono {ks ks' : List (String × String)} {a : Nat} {h h' : Store K} (g : Grown ks a h h')
    (hs : ∀ x ∈ ks, x ∈ ks') (hd : ∀ x ∈ ks', x.1 ∈ ks.map Prod.fst → x ∈ ks) : Grown ks' a h h' := by
  refine ⟨g.others, fun b hb => ?_⟩
  obtain ⟨b', hb', hk, hkp⟩ := g.input b hb
  refine ⟨b', hb', fun t k hn => hk t k fun hm => hn ?_, fun kp hm => ?_⟩
  · obtain ⟨x, hx, rfl⟩ := List.mem_map.1 hm
    exact List.mem_map_of_mem (hs x hx)
  · by_cases hc : kp.1 ∈ ks.map Prod.fst
    · exact hkp kp (hd kp hm hc)
    · exact Or.inl fun t => hk t kp.1 hc

theorem Grown.inner {a : Nat} {h h' : Store K} (g : Grown [("inner_solver_db", "inner")] a h h') :
    Grown solverKeys a h h' :=
  g.mono (by simp [solverKeys]) (by simp [solverKeys])

theorem Grown.outer {a : Nat} {h h' : Store K} (g : Grown [("outer_solver_db", "outer")] a h h') :
    Grown solverKeys a h h' :=
  g.mono (by simp [solverKeys]) (by simp [solverKeys])

theorem linear_grown (key pre : String) (h : Store K) (a new : Nat) (b : InputDB K) (ha : h a = some b)
    (hn : h new = none) : Grown [(key, pre)] a h (linear key pre h a new).2 := by
  have hne : new ≠ a := by rintro rfl; rw [ha] at hn; cases hn
  rw [(linear_eq key pre h a new b ha hn).2]
  cases hs : settings b pre with
  | none => exact Grown.refl _ _ _
  | some s =>
    dsimp only
    cases hk : b.check key with
    | true => simp only [if_true]; exact Grown.refl _ _ _
    | false =>
      simp only [Bool.false_eq_true, if_false]
      refine ⟨fun p hp c hc => ?_, fun c hc => ?_⟩
      · rw [set_ne _ _ _ _ hp, set_ne _ _ _ _ (by rintro rfl; rw [hn] at hc; cases hc), hc]
      · rw [ha] at hc
        obtain rfl := Option.some.inj hc
        refine ⟨_, set_same _ _ _, fun t k hk' => get_put_ne _ _ _ _ _ _ (fun he => hk' (by simp [he])), ?_⟩
        intro kp hkp
        obtain rfl := List.mem_singleton.1 hkp
        refine Or.inr ⟨hk, new, s, hn, hs, ?_, get_put_same _ _ _ _, fun t ht => ?_⟩
        · rw [set_ne _ _ _ _ hne, set_same]
        · exact (get_put_ty _ _ _ _ _ _ (Ne.symm ht)).trans (check_false hk t)

theorem Grown.isSome {ks : List (String × String)} {a : Nat} {h h' : Store K} (g : Grown ks a h h') {p : Nat} {b : InputDB K}
    (hp : h p = some b) : ∃ b', h' p = some b' ∧ ∀ t k, k ∉ ks.map Prod.fst → b'.get t k = b.get t k := by
  by_cases hpa : p = a
  · subst hpa
    obtain ⟨b', h1, h2, _⟩ := g.input b hp
    exact ⟨b', h1, h2⟩
  · exact ⟨b, g.others p hpa b hp, fun _ _ _ => rfl⟩

theorem Grown.trans {ks : List (String × String)} {a : Nat} {h h' h'' : Store K} (g : Grown ks a h h')
    (g' : Grown ks a h' h'') (hks : ∀ kp ∈ ks, ∀ k, settingKey kp.2 k → k ∉ ks.map Prod.fst) : Grown ks a h h'' := by
  refine ⟨fun p hp b hb => g'.others p hp b (g.others p hp b hb), fun b hb => ?_⟩
  obtain ⟨b', hb', e1, c1⟩ := g.input b hb
  obtain ⟨b'', hb'', e2, c2⟩ := g'.input b' hb'
  refine ⟨b'', hb'', fun t k hk => (e2 t k hk).trans (e1 t k hk), fun kp hkp => ?_⟩
  rcases c1 kp hkp with c | ⟨hc, n, s, hn, hs, hm, hd, ho⟩
  · rcases c2 kp hkp with d | ⟨hc', n, s, hn, hs, hm, hd, ho⟩
    · exact Or.inl fun t => (d t).trans (c t)
    · refine Or.inr ⟨(check_congr c).symm.trans hc', n, s, ?_, ?_, hm, hd, ho⟩
      · cases hh : h n with
        | none => rfl
        | some x =>
          obtain ⟨y, hy, _⟩ := g.isSome hh
          rw [hn] at hy; cases hy
      · rw [← hs]
        exact settings_congr fun k hk t => (e1 t k (hks kp hkp k hk)).symm
  · have hna : n ≠ a := by rintro rfl; rw [hb] at hn; cases hn
    rcases c2 kp hkp with d | ⟨hc', _⟩
    · refine Or.inr ⟨hc, n, s, hn, hs, g'.others n hna _ hm, (d .db).trans hd, fun t ht => (d t).trans (ho t ht)⟩
    · have := check_false hc' .db
      rw [this] at hd
      cases hd

theorem solverKeys_apart : ∀ kp ∈ solverKeys, ∀ k, settingKey kp.2 k → k ∉ solverKeys.map Prod.fst := by
  intro kp hkp k hk
  simp only [solverKeys, List.mem_cons, List.not_mem_nil, or_false] at hkp
  rcases hkp with rfl | rfl <;> rcases hk with rfl | rfl | rfl <;> decide

theorem inner_settings {k : String} (hk : settingKey "inner" k) : k ∉ solverKeys.map Prod.fst :=
  solverKeys_apart ("inner_solver_db", "inner") (by simp [solverKeys]) k hk

theorem outer_settings {k : String} (hk : settingKey "outer" k) : k ∉ solverKeys.map Prod.fst :=
  solverKeys_apart ("outer_solver_db", "outer") (by simp [solverKeys]) k hk

theorem linKey_apart {k : String} (hk : linKey k) : k ∉ solverKeys.map Prod.fst := by
  simp only [linKey, linearKeys, List.map_cons, List.map_nil, List.mem_cons, List.not_mem_nil, or_false] at hk
  rcases hk with rfl | rfl | rfl | rfl | rfl | rfl | rfl | rfl | rfl <;> decide

theorem eigKey_apart {k : String} (hk : eigKey k) : k ∉ solverKeys.map Prod.fst := by
  simp only [eigKey, eigenKeys, List.map_cons, List.map_nil, List.mem_cons, List.not_mem_nil, or_false] at hk
  rcases hk with rfl | rfl | rfl | rfl | rfl | rfl <;> decide

/-- Specification.  The solver within the groups that an input asks for. -/
def wantedInner (e : Env) (h : Store K) (b : InputDB K) : Except Fail (Option (LinSolver K)) :=
  match readStr b "inner_solver" "SI", readStr b "equation" "dd" with
  | some w, some q =>
    if (w = "SI" ∨ w = "GMRES") ∧ Managers.sweepable e.dim q then
      if w = "SI" then .ok none else (wanted h b "inner_solver_db" "inner").map some
    else .error .threw
  | _, _ => .error .ub

theorem makeInner_spec (e : Env) (h : Store K) (a new : Nat) (b : InputDB K) (ha : h a = some b) (hn : h new = none) :
    (makeInner e h a new).1 = wantedInner e h b ∧
    Grown [("inner_solver_db", "inner")] a h (makeInner e h a new).2 := by
  unfold makeInner wantedInner
  rw [ha]
  dsimp only
  cases readStr b "inner_solver" "SI" with
  | none => exact ⟨rfl, Grown.refl _ _ _⟩
  | some w =>
    cases readStr b "equation" "dd" with
    | none => exact ⟨rfl, Grown.refl _ _ _⟩
    | some q =>
      dsimp only
      by_cases hw : w = "SI" ∨ w = "GMRES"
      · rw [if_pos hw]
        cases hq : Managers.sweepable e.dim q with
        | false => simp [hw, Grown.refl]
        | true =>
          simp only [if_true, hw, true_and]
          by_cases hs : w = "SI"
          · simp [hs, Grown.refl]
          · rw [if_neg hs, if_neg hs]
            obtain ⟨h1, _⟩ := linear_eq "inner_solver_db" "inner" h a new b ha hn
            have h2 := linear_grown "inner_solver_db" "inner" h a new b ha hn
            generalize linear "inner_solver_db" "inner" h a new = r at h1 h2
            obtain ⟨r1, r2⟩ := r
            dsimp only at h1 h2
            subst h1
            cases wanted h b "inner_solver_db" "inner" with
            | error f => exact ⟨rfl, h2⟩
            | ok s => exact ⟨rfl, h2⟩
      · rw [if_neg hw]
        simp [hw, Grown.refl]

/-- The database a key leads to is there. -/
def Sound (h : Store K) (b : InputDB K) : Prop :=
  ∀ k (v : Nat), (b.get .db k : Option Nat) = some v → ∃ d, h v = some d

/-- What is wanted does not change when entries are added under other keys. -/
theorem wanted_congr {h h' : Store K} {b b' : InputDB K} {key pre : String} (hs : AgreeOn (settingKey pre) b' b)
    (hk : ∀ t, b'.get t key = b.get t key)
    (hd : ∀ p : Nat, (b.get .db key : Option Nat) = some p → ∃ d d', h p = some d ∧ h' p = some d' ∧ AgreeOn linKey d' d) :
    wanted h' b' key pre = wanted h b key pre := by
  unfold wanted
  rw [settings_congr hs, check_congr hk]
  cases settings b pre with
  | none => rfl
  | some s =>
    dsimp only
    cases b.check key with
    | false => rfl
    | true =>
      simp only [if_true]
      have hk' : (b'.get .db key : Option Nat) = (b.get .db key : Option Nat) := hk .db
      cases hp : (b.get .db key : Option Nat) with
      | none => rw [hp] at hk'; rw [hk']
      | some p =>
        rw [hp] at hk'; rw [hk']
        obtain ⟨d, d', h1, h2, h3⟩ := hd p hp
        exact create_congr h2 h1 h3

/-- Specification.  The solvers that an input asks for.  In the coarse problem of the transport-corrected preconditioner the
    solver is that of the problem itself. -/
def answer (e : Env) (h : Store K) (b : InputDB K) : Except Fail (Made K) :=
  match readStr b "equation" "dd", readStr b "outer_solver" "GS" with
  | some q, some o =>
    if q = "diffusion" then (wanted h b "outer_solver_db" "outer").map fun s => ⟨none, some s, none⟩
    else if o = "GS" ∨ o = "CMFD" then (wantedInner e h b).map fun i => ⟨i, none, none⟩
    else if o = "GMRES" then
      (wantedInner e h b).bind fun i =>
        match readOpt b "outer_krylov_group_cutoff", readOpt b "adjoint" with
        | some cut, some adj =>
          match e.block cut adj with
          | none => .error .threw
          | some false => .ok ⟨i, none, none⟩
          | some true =>
            (wanted h b "outer_solver_db" "outer").bind fun s =>
              match readStr b "outer_pc_type" "none" with
              | none => .error .ub
              | some pc =>
                if pc = "mgtcdsa" then
                  match readInt b "mgpc_number_polar_octant" 1, readInt b "mgpc_number_azimuth_octant" 1 with
                  | some _, some _ => .ok ⟨i, some s, some s⟩
                  | _, _ => .error .ub
                else .ok ⟨i, some s, none⟩
        | _, _ => .error .ub
    else .error .refused
  | _, _ => .error .ub

/-! ### The databases after making a solver -/

theorem linear_none (key pre : String) (h : Store K) (a new : Nat) (b : InputDB K) (ha : h a = some b)
    (hn : h new = none) (p : Nat) (hp : p ≠ new) (h0 : h p = none) : (linear key pre h a new).2 p = none := by
  have hpa : p ≠ a := by rintro rfl; rw [ha] at h0; cases h0
  rw [(linear_eq key pre h a new b ha hn).2]
  cases settings b pre with
  | none => exact h0
  | some s =>
    dsimp only
    cases b.check key with
    | true => exact h0
    | false =>
      simp only [Bool.false_eq_true, if_false]
      rw [set_ne _ _ _ _ hpa, set_ne _ _ _ _ hp, h0]

theorem linear_check (key pre : String) (h : Store K) (a new : Nat) (b : InputDB K) (ha : h a = some b)
    (hn : h new = none) (s : LinSolver K) (hs : (linear key pre h a new).1 = .ok s) :
    ∃ b', (linear key pre h a new).2 a = some b' ∧ b'.check key = true := by
  obtain ⟨h1, h2⟩ := linear_eq key pre h a new b ha hn
  rw [h1] at hs
  rw [h2]
  unfold wanted at hs
  cases hst : settings b pre with
  | none => rw [hst] at hs; cases hs
  | some x =>
    dsimp only
    cases hk : b.check key with
    | true => exact ⟨b, ha, hk⟩
    | false =>
      simp only [Bool.false_eq_true, if_false]
      refine ⟨_, set_same _ _ _, ?_⟩
      exact check_put _ _ _ _

theorem linear_present (key pre : String) (h : Store K) (a new : Nat) (b : InputDB K) (ha : h a = some b)
    (hk : b.check key = true) : linear key pre h a new = (wanted h b key pre, h) := by
  unfold linear own wanted
  rw [ha]
  dsimp only
  cases settings b pre with
  | none => rfl
  | some s =>
    dsimp only
    rw [hk]
    simp only [if_true]
    cases (b.get .db key : Option Nat) <;> rfl

theorem makeInner_none (e : Env) (h : Store K) (a new : Nat) (b : InputDB K) (ha : h a = some b)
    (hn : h new = none) (p : Nat) (hp : p ≠ new) (h0 : h p = none) : (makeInner e h a new).2 p = none := by
  unfold makeInner
  rw [ha]
  dsimp only
  cases readStr b "inner_solver" "SI" with
  | none => exact h0
  | some w =>
    cases readStr b "equation" "dd" with
    | none => exact h0
    | some q =>
      dsimp only
      split_ifs
      · exact h0
      · have := linear_none "inner_solver_db" "inner" h a new b ha hn p hp h0
        generalize linear "inner_solver_db" "inner" h a new = r at this
        obtain ⟨r1, r2⟩ := r
        cases r1 <;> exact this
      · exact h0
      · exact h0

theorem makeInner_check (e : Env) (h : Store K) (a new : Nat) (b : InputDB K) (ha : h a = some b)
    (hn : h new = none) (i : Option (LinSolver K)) (hi : (makeInner e h a new).1 = .ok i)
    (hw : readStr b "inner_solver" "SI" ≠ some "SI") :
    ∃ b', (makeInner e h a new).2 a = some b' ∧ b'.check "inner_solver_db" = true := by
  unfold makeInner at hi ⊢
  rw [ha] at hi ⊢
  dsimp only at hi ⊢
  cases hws : readStr b "inner_solver" "SI" with
  | none => rw [hws] at hi; cases hi
  | some w =>
    rw [hws] at hi hw
    cases hqs : readStr b "equation" "dd" with
    | none => rw [hqs] at hi; cases hi
    | some q =>
      rw [hqs] at hi
      dsimp only at hi ⊢
      have hne : w ≠ "SI" := fun he => hw (by rw [he])
      by_cases h1 : w = "SI" ∨ w = "GMRES"
      · rw [if_pos h1] at hi ⊢
        cases h2 : Managers.sweepable e.dim q with
        | false => rw [h2] at hi; cases hi
        | true =>
          rw [h2] at hi
          simp only [if_true, if_neg hne] at hi ⊢
          have := linear_check "inner_solver_db" "inner" h a new b ha hn
          generalize linear "inner_solver_db" "inner" h a new = r at this hi
          obtain ⟨r1, r2⟩ := r
          cases r1 with
          | error f => cases hi
          | ok s => exact this s rfl
      · rw [if_neg h1] at hi; cases hi

theorem makeInner_present (e : Env) (h : Store K) (a new : Nat) (b : InputDB K) (ha : h a = some b)
    (hk : readStr b "inner_solver" "SI" ≠ some "SI" → b.check "inner_solver_db" = true) :
    makeInner e h a new = (wantedInner e h b, h) := by
  unfold makeInner wantedInner
  rw [ha]
  dsimp only
  cases hws : readStr b "inner_solver" "SI" with
  | none => rfl
  | some w =>
    cases readStr b "equation" "dd" with
    | none => rfl
    | some q =>
      dsimp only
      by_cases h1 : w = "SI" ∨ w = "GMRES"
      · rw [if_pos h1]
        cases h2 : Managers.sweepable e.dim q with
        | false => simp [h1]
        | true =>
          by_cases hs : w = "SI"
          · simp [hs]
          · simp only [if_true, h1, true_and, if_neg hs]
            rw [linear_present _ _ _ _ _ b ha (hk (by rw [hws]; exact fun he => hs (Option.some.inj he)))]
            cases wanted h b "inner_solver_db" "inner" <;> rfl
      · simp [h1]

theorem Sound.grown {a : Nat} {h h' : Store K} {b b' : InputDB K} {ks : List (String × String)} (so : Sound h b)
    (g : Grown ks a h h') (ha : h a = some b) (ha' : h' a = some b') : Sound h' b' := by
  intro k v hv
  obtain ⟨b'', hb'', e1, c1⟩ := g.input b ha
  obtain rfl := Option.some.inj (ha'.symm.trans hb'')
  have keep : (b.get .db k : Option Nat) = some v → ∃ d, h' v = some d := fun hh => by
    obtain ⟨d, hd⟩ := so k v hh
    obtain ⟨d', hd', _⟩ := g.isSome hd
    exact ⟨d', hd'⟩
  by_cases hk : k ∈ ks.map Prod.fst
  · obtain ⟨kp, hkp, rfl⟩ := List.mem_map.1 hk
    rcases c1 kp hkp with c | ⟨_, n, s, _, _, hm, hd, _⟩
    · exact keep ((c .db).symm.trans hv)
    · rw [hd] at hv
      obtain rfl := Option.some.inj hv
      exact ⟨_, hm⟩
  · exact keep ((e1 .db k hk).symm.trans hv)

/-- Making solvers does not change what is wanted. -/
theorem wanted_grown {a : Nat} {h h' : Store K} {b b' : InputDB K} (so : Sound h b) (g : Grown solverKeys a h h')
    (ha : h a = some b) (ha' : h' a = some b') (kp : String × String) (hkp : kp ∈ solverKeys) :
    wanted h' b' kp.1 kp.2 = wanted h b kp.1 kp.2 := by
  obtain ⟨b'', hb'', e1, c1⟩ := g.input b ha
  obtain rfl := Option.some.inj (ha'.symm.trans hb'')
  have hset : AgreeOn (settingKey kp.2) b' b := fun k hk t => e1 t k (solverKeys_apart kp hkp k hk)
  rcases c1 kp hkp with c | ⟨hc, n, s, hn, hs, hm, hd, ho⟩
  · refine wanted_congr hset c fun p hp => ?_
    obtain ⟨d, hd⟩ := so kp.1 p hp
    obtain ⟨d', hd', hag⟩ := g.isSome hd
    exact ⟨d, d', hd, hd', fun k hk t => hag t k (linKey_apart hk)⟩
  · have hck : b'.check kp.1 = true := (check_iff _ _).2 ⟨.db, by rw [show b'.get .db kp.1 = some n from hd]; rfl⟩
    unfold wanted
    rw [settings_congr hset, hs, hc, hck]
    simp only [if_true, Bool.false_eq_true, if_false]
    rw [hd]
    exact create_made _ _ s hm

theorem wantedInner_congr {e : Env} {h h' : Store K} {b b' : InputDB K}
    (hw : wanted h' b' "inner_solver_db" "inner" = wanted h b "inner_solver_db" "inner")
    (h1 : ∀ t, b'.get t "inner_solver" = b.get t "inner_solver") (h2 : ∀ t, b'.get t "equation" = b.get t "equation") :
    wantedInner e h' b' = wantedInner e h b := by
  unfold wantedInner
  rw [readStr_congr h1, readStr_congr h2, hw]

theorem coarse_get {b c : InputDB K} (hc : coarseInput b = some c) :
    (∀ t k, k ∉ ["quad_number_azimuth_octant", "quad_number_polar_octant", "outer_pc_type"] → c.get t k = b.get t k) ∧
    readStr c "outer_pc_type" "none" = some "none" := by
  unfold coarseInput at hc
  cases h1 : readInt b "mgpc_number_polar_octant" 1 with
  | none => rw [h1] at hc; cases hc
  | some np =>
    cases h2 : readInt b "mgpc_number_azimuth_octant" 1 with
    | none => rw [h1, h2] at hc; cases hc
    | some na =>
      rw [h1, h2] at hc
      obtain rfl := Option.some.inj hc
      refine ⟨fun t k hk => ?_, ?_⟩
      · simp only [List.mem_cons, List.not_mem_nil, or_false, not_or] at hk
        exact (get_put_ne _ _ _ _ _ _ (Ne.symm hk.2.2)).trans
          ((get_put_ne _ _ _ _ _ _ (Ne.symm hk.2.1)).trans (get_put_ne _ _ _ _ _ _ (Ne.symm hk.1)))
      · have hg : ∀ b : InputDB K, (b.put .str "outer_pc_type" "none").get .str "outer_pc_type" = some "none" :=
          fun b => get_put_same b .str _ _
        unfold readStr read
        rw [if_pos ((check_iff _ _).2 ⟨.str, by rw [hg]; rfl⟩)]
        exact hg _

/-- Making a solver builds what the input asks for and leaves the databases as `Grown` says. -/
theorem setSolver_spec (e : Env) (h : Store K) (a n1 n2 n3 : Nat) (b : InputDB K) (ha : h a = some b) (so : Sound h b)
    (f1 : h n1 = none) (f2 : h n2 = none) (f3 : h n3 = none) (d12 : n1 ≠ n2) (d13 : n1 ≠ n3) (d23 : n2 ≠ n3) :
    (setSolver e n1 n2 n3 2 h a).1 = answer e h b ∧ Grown solverKeys a h (setSolver e n1 n2 n3 2 h a).2 ∧
    ∀ m, (setSolver e n1 n2 n3 2 h a).1 = .ok m → m.outer.isSome = true →
      ∃ b', (setSolver e n1 n2 n3 2 h a).2 a = some b' ∧ b'.check "outer_solver_db" = true := by
  unfold setSolver answer
  rw [ha]
  dsimp only
  cases hq : readStr b "equation" "dd" with
  | none => exact ⟨rfl, Grown.refl _ _ _, fun m hm ho => (by first | (cases hm; done) | (cases hm; cases ho))⟩
  | some q =>
  cases ho : readStr b "outer_solver" "GS" with
  | none => exact ⟨rfl, Grown.refl _ _ _, fun m hm ho => (by first | (cases hm; done) | (cases hm; cases ho))⟩
  | some o =>
  dsimp only
  by_cases hqd : q = "diffusion"
  · rw [if_pos hqd, if_pos hqd]
    obtain ⟨h1, _⟩ := linear_eq "outer_solver_db" "outer" h a n2 b ha f2
    have h2 := linear_grown "outer_solver_db" "outer" h a n2 b ha f2
    have h3 := linear_check "outer_solver_db" "outer" h a n2 b ha f2
    generalize linear "outer_solver_db" "outer" h a n2 = r at h1 h2 h3
    obtain ⟨r1, r2⟩ := r
    dsimp only at h1 h2 h3
    subst h1
    cases hw : wanted h b "outer_solver_db" "outer" with
    | error f => exact ⟨rfl, h2.outer, fun m hm ho => (by first | (cases hm; done) | (cases hm; cases ho))⟩
    | ok s => exact ⟨rfl, h2.outer, fun m _ _ => h3 s hw⟩
  rw [if_neg hqd, if_neg hqd]
  obtain ⟨i1, i2⟩ := makeInner_spec e h a n1 b ha f1
  have i3 := makeInner_none e h a n1 b ha f1
  have i4 := makeInner_check e h a n1 b ha f1
  generalize makeInner e h a n1 = r at i1 i2 i3 i4
  obtain ⟨r1, h'⟩ := r
  dsimp only at i1 i2 i3 i4
  subst i1
  by_cases hgs : o = "GS" ∨ o = "CMFD"
  · rw [if_pos hgs, if_pos hgs]
    cases wantedInner e h b with
    | error f => exact ⟨rfl, i2.inner, fun m hm ho => (by first | (cases hm; done) | (cases hm; cases ho))⟩
    | ok i => exact ⟨rfl, i2.inner, fun m hm ho => (by first | (cases hm; done) | (cases hm; cases ho))⟩
  rw [if_neg hgs, if_neg hgs]
  by_cases hgm : o = "GMRES"
  swap
  · rw [if_neg hgm, if_neg hgm]; exact ⟨rfl, Grown.refl _ _ _, fun m hm ho => (by first | (cases hm; done) | (cases hm; cases ho))⟩
  rw [if_pos hgm, if_pos hgm]
  cases hwi : wantedInner e h b with
  | error f => exact ⟨rfl, i2.inner, fun m hm ho => (by first | (cases hm; done) | (cases hm; cases ho))⟩
  | ok i =>
  rw [hwi] at i4
  dsimp only [Except.bind]
  cases hcut : readOpt b "outer_krylov_group_cutoff" with
  | none => exact ⟨rfl, i2.inner, fun m hm ho => (by first | (cases hm; done) | (cases hm; cases ho))⟩
  | some cut =>
  cases hadj : readOpt b "adjoint" with
  | none => exact ⟨rfl, i2.inner, fun m hm ho => (by first | (cases hm; done) | (cases hm; cases ho))⟩
  | some adj =>
  dsimp only
  cases hblk : e.block cut adj with
  | none => exact ⟨rfl, i2.inner, fun m hm ho => (by first | (cases hm; done) | (cases hm; cases ho))⟩
  | some bl =>
  cases bl with
  | false => exact ⟨rfl, i2.inner, fun m hm ho => (by first | (cases hm; done) | (cases hm; cases ho))⟩
  | true =>
  dsimp only
  obtain ⟨b1, hb1, g1, k1⟩ := i2.input b ha
  have f2' : h' n2 = none := i3 n2 (Ne.symm d12) f2
  have f3' : h' n3 = none := i3 n3 (Ne.symm d13) f3
  have so1 : Sound h' b1 := so.grown i2 ha hb1
  obtain ⟨o1, _⟩ := linear_eq "outer_solver_db" "outer" h' a n2 b1 hb1 f2'
  have o2 := linear_grown "outer_solver_db" "outer" h' a n2 b1 hb1 f2'
  have o3 := linear_none "outer_solver_db" "outer" h' a n2 b1 hb1 f2' n3 (Ne.symm d23) f3'
  have o4 := linear_check "outer_solver_db" "outer" h' a n2 b1 hb1 f2'
  generalize linear "outer_solver_db" "outer" h' a n2 = r at o1 o2 o3 o4
  obtain ⟨r1, h''⟩ := r
  dsimp only at o1 o2 o3 o4
  have w1 : wanted h' b1 "outer_solver_db" "outer" = wanted h b "outer_solver_db" "outer" :=
    wanted_grown so i2.inner ha hb1 ("outer_solver_db", "outer") (by simp [solverKeys])
  rw [w1] at o1
  subst o1
  have g2 : Grown solverKeys a h h'' := i2.inner.trans o2.outer solverKeys_apart
  cases hwo : wanted h b "outer_solver_db" "outer" with
  | error f => exact ⟨rfl, g2, fun m hm ho => (by first | (cases hm; done) | (cases hm; cases ho))⟩
  | ok s =>
  dsimp only
  rw [hwo] at o4
  obtain ⟨b2, hb2, hck2⟩ := o4 s rfl
  rw [hb2]
  dsimp only
  obtain ⟨b2', hb2', e12, _⟩ := g2.input b ha
  obtain rfl := Option.some.inj (hb2.symm.trans hb2')
  obtain ⟨b2', hb2'', e2, _⟩ := o2.input b1 hb1
  obtain rfl := Option.some.inj (hb2.symm.trans hb2'')
  have rd : ∀ k, k ∉ solverKeys.map Prod.fst → ∀ t, b2.get t k = b.get t k := fun k hk t => e12 t k hk
  rw [readStr_congr (rd "outer_pc_type" (by decide))]
  cases hpc : readStr b "outer_pc_type" "none" with
  | none => exact ⟨rfl, g2, fun m hm ho => (by first | (cases hm; done) | (cases hm; cases ho))⟩
  | some pc =>
  dsimp only
  by_cases hm : pc = "mgtcdsa"
  swap
  · rw [if_neg hm, if_neg hm]; exact ⟨rfl, g2, fun _ _ _ => ⟨b2, hb2, hck2⟩⟩
  rw [if_pos hm, if_pos hm]
  have np : readInt b2 "mgpc_number_polar_octant" 1 = readInt b "mgpc_number_polar_octant" 1 :=
    readInt_congr (rd _ (by decide)) 1
  have na : readInt b2 "mgpc_number_azimuth_octant" 1 = readInt b "mgpc_number_azimuth_octant" 1 :=
    readInt_congr (rd _ (by decide)) 1
  cases hnp : readInt b "mgpc_number_polar_octant" 1 with
  | none =>
    have : coarseInput b2 = none := by unfold coarseInput; rw [np, na, hnp]
    rw [this]
    exact ⟨rfl, g2, fun m hm ho => (by first | (cases hm; done) | (cases hm; cases ho))⟩
  | some p =>
  cases hna : readInt b "mgpc_number_azimuth_octant" 1 with
  | none =>
    have : coarseInput b2 = none := by unfold coarseInput; rw [np, na, hnp, hna]
    rw [this]
    exact ⟨rfl, g2, fun m hm ho => (by first | (cases hm; done) | (cases hm; cases ho))⟩
  | some n =>
  cases hc : coarseInput b2 with
  | none => unfold coarseInput at hc; rw [np, na, hnp, hna] at hc; cases hc
  | some c =>
  dsimp only
  obtain ⟨cg, cpc⟩ := coarse_get hc
  have so2 : Sound h'' b2 := so.grown g2 ha hb2
  have hn3 : n3 ≠ a := by rintro rfl; rw [ha] at f3; cases f3
  have hcs : h''.set n3 c n3 = some c := set_same _ _ _
  -- the copy asks for the same as the input
  have wc : ∀ kp ∈ solverKeys, wanted (h''.set n3 c) c kp.1 kp.2 = wanted h b kp.1 kp.2 := by
    intro kp hkp
    rw [← wanted_grown so g2 ha hb2 kp hkp]
    refine wanted_congr (fun k hk t => cg t k ?_) (fun t => cg t _ ?_) fun p hp => ?_
    · simp only [solverKeys, List.mem_cons, List.not_mem_nil, or_false] at hkp
      rcases hkp with rfl | rfl <;> rcases hk with rfl | rfl | rfl <;> decide
    · simp only [solverKeys, List.mem_cons, List.not_mem_nil, or_false] at hkp
      rcases hkp with rfl | rfl <;> decide
    · obtain ⟨d, hd⟩ := so2 kp.1 p hp
      refine ⟨d, d, hd, ?_, fun _ _ _ => rfl⟩
      rw [set_ne _ _ _ _ (by rintro rfl; rw [o3] at hd; cases hd), hd]
  have rc : ∀ k, k ∉ solverKeys.map Prod.fst →
      k ∉ ["quad_number_azimuth_octant", "quad_number_polar_octant", "outer_pc_type"] → ∀ t, c.get t k = b.get t k :=
    fun k h1 h2 t => (cg t k h2).trans (rd k h1 t)
  have wic : wantedInner e (h''.set n3 c) c = .ok i := by
    rw [← hwi]
    exact wantedInner_congr (wc ("inner_solver_db", "inner") (by simp [solverKeys]))
      (rc _ (by decide) (by decide)) (rc _ (by decide) (by decide))
  have hinn : makeInner e (h''.set n3 c) n3 n1 = (.ok i, h''.set n3 c) := by
    rw [makeInner_present e (h''.set n3 c) n3 n1 c hcs, wic]
    intro hw
    rw [readStr_congr (rc "inner_solver" (by decide) (by decide))] at hw
    obtain ⟨b1', hb1', hck⟩ := i4 i rfl hw
    obtain rfl := Option.some.inj (hb1.symm.trans hb1')
    rw [check_congr fun t => cg t _ (by decide), check_congr fun t => e2 t _ (by decide)]
    exact hck
  have hout : linear "outer_solver_db" "outer" (h''.set n3 c) n3 n2 = (.ok s, h''.set n3 c) := by
    rw [linear_present _ _ _ _ _ c hcs, wc ("outer_solver_db", "outer") (by simp [solverKeys]), hwo]
    rw [check_congr fun t => cg t _ (by decide)]
    exact hck2
  have hin : setSolver e n1 n2 n3 1 (h''.set n3 c) n3 = (.ok ⟨i, some s, none⟩, h''.set n3 c) := by
    unfold setSolver
    rw [hcs]
    dsimp only
    rw [readStr_congr (rc "equation" (by decide) (by decide)), hq,
      readStr_congr (rc "outer_solver" (by decide) (by decide)), ho]
    dsimp only
    rw [if_neg hqd, if_neg hgs, if_pos hgm, hinn]
    dsimp only
    rw [readOpt_congr (rc "outer_krylov_group_cutoff" (by decide) (by decide)), hcut,
      readOpt_congr (rc "adjoint" (by decide) (by decide)), hadj]
    dsimp only
    rw [hblk]
    dsimp only
    rw [hout]
    dsimp only
    rw [hcs]
    dsimp only
    rw [cpc]
    dsimp only
    rw [if_neg (by decide)]
  rw [hin]
  refine ⟨rfl, ?_, fun _ _ _ => ⟨b2, (set_ne _ _ _ _ (Ne.symm hn3)).trans hb2, hck2⟩⟩
  refine ⟨fun p hp d hd => ?_, fun d hd => ?_⟩
  · have := g2.others p hp d hd
    dsimp only
    rw [set_ne _ _ _ _ (by rintro rfl; rw [f3] at hd; cases hd), this]
  · obtain ⟨d', hd', x1, x2⟩ := g2.input d hd
    refine ⟨d', ?_, x1, fun kp hkp => ?_⟩
    · dsimp only
      rw [set_ne _ _ _ _ (Ne.symm hn3), hd']
    · rcases x2 kp hkp with x | ⟨y1, n, y, y2, y3, y4, y5, y6⟩
      · exact Or.inl x
      · refine Or.inr ⟨y1, n, y, y2, y3, ?_, y5, y6⟩
        dsimp only
        rw [set_ne _ _ _ _ (by rintro rfl; rw [o3] at y4; cases y4), y4]

/-! ## C127 -/

/-- Specification.  The value an entry has, if it is there, or its default. -/
def Entry (b : InputDB K) (t : Ty) (key : String) (dflt v : t.Val K) : Prop :=
  ((∀ t', b.get t' key = none) ∧ v = dflt) ∨ b.get t key = some v

theorem read_entry (b : InputDB K) (t : Ty) (key : String) (dflt v : t.Val K) :
    read b t key dflt = some v ↔ Entry b t key dflt v := by
  unfold read Entry
  cases hc : b.check key with
  | true =>
    simp only [if_true]
    refine ⟨Or.inr, fun h => h.resolve_left fun hn => ?_⟩
    obtain ⟨t', ht'⟩ := (check_iff b key).1 hc
    rw [hn.1 t'] at ht'
    cases ht'
  | false =>
    simp only [Bool.false_eq_true, if_false]
    refine ⟨fun h => Or.inl ⟨check_false hc, (Option.some.inj h).symm⟩, ?_⟩
    rintro (h | h)
    · rw [h.2]
    · rw [check_false hc t] at h; cases h

theorem settings_entry (b : InputDB K) (pre : String) (t : K) (m l : Int) :
    settings b pre = some (t, m, l) ↔
      Entry b .int (pre ++ "_max_iters") (100 : Int) m ∧ Entry b .dbl (pre ++ "_tolerance") (1 / 10 ^ 5 : K) t ∧
      Entry b .int (pre ++ "_print_level") (2 : Int) l := by
  have r1 : readInt b (pre ++ "_max_iters") 100 = some m ↔ Entry b .int (pre ++ "_max_iters") (100 : Int) m :=
    read_entry b .int _ _ _
  have r2 : readDbl b (pre ++ "_tolerance") (1 / 10 ^ 5) = some t ↔ Entry b .dbl (pre ++ "_tolerance") (1 / 10 ^ 5 : K) t :=
    read_entry b .dbl _ _ _
  have r3 : readInt b (pre ++ "_print_level") 2 = some l ↔ Entry b .int (pre ++ "_print_level") (2 : Int) l :=
    read_entry b .int _ _ _
  refine Iff.trans ?_ (and_congr r1 (and_congr r2 r3))
  unfold settings
  cases readInt b (pre ++ "_max_iters") 100 <;> cases readDbl b (pre ++ "_tolerance") (1 / 10 ^ 5) <;>
    cases readInt b (pre ++ "_print_level") 2 <;> simp
  tauto

/-- C127: the solvers made from an input are those it asks for (`answer`): the ones its solver databases describe, or GMRES
    with the tolerances in the input.  This holds whatever was done before, for the input as it is. -/
theorem C127_made (e : Env) (h : Store K) (a n1 n2 n3 : Nat) (b : InputDB K) (ha : h a = some b) (so : Sound h b)
    (f1 : h n1 = none) (f2 : h n2 = none) (f3 : h n3 = none) (d12 : n1 ≠ n2) (d13 : n1 ≠ n3) (d23 : n2 ≠ n3) :
    (step e h (.solver a n1 n2 n3)).1 = .solver (answer e h b) :=
  congrArg Got.solver (setSolver_spec e h a n1 n2 n3 b ha so f1 f2 f3 d12 d13 d23).1

/-- C127: a solver for diffusion, made from an input that holds no solver database, uses the tolerance, the limit and the
    print level in the input. -/
theorem C127_defaults (e : Env) (h : Store K) (a n1 n2 n3 : Nat) (b : InputDB K) (ha : h a = some b) (so : Sound h b)
    (f1 : h n1 = none) (f2 : h n2 = none) (f3 : h n3 = none) (d12 : n1 ≠ n2) (d13 : n1 ≠ n3) (d23 : n2 ≠ n3)
    (heq : b.get .str "equation" = some "diffusion") (o : String) (ho : Entry b .str "outer_solver" "GS" o)
    (hdb : ∀ t, b.get t "outer_solver_db" = none)
    (tol : K) (m l : Int) (ht : Entry b .dbl "outer_tolerance" (1 / 10 ^ 5 : K) tol)
    (hm : Entry b .int "outer_max_iters" (100 : Int) m) (hl : Entry b .int "outer_print_level" (2 : Int) l) :
    (step e h (.solver a n1 n2 n3)).1 =
      .solver (.ok ⟨none, some ⟨.gmres 30, tol, tol, m, false, l⟩, none⟩) := by
  rw [C127_made e h a n1 n2 n3 b ha so f1 f2 f3 d12 d13 d23]
  have hs : settings b "outer" = some (tol, m, l) := (settings_entry b "outer" tol m l).2 ⟨hm, ht, hl⟩
  have hq : readStr b "equation" "dd" = some "diffusion" := (read_entry b .str _ _ _).2 (Or.inr heq)
  have ho' : readStr b "outer_solver" "GS" = some o := (read_entry b .str _ _ _).2 ho
  have hc : b.check "outer_solver_db" = false := by
    by_contra hn
    obtain ⟨t, ht⟩ := (check_iff b _).1 (by simpa using hn)
    rw [hdb t] at ht; cases ht
  unfold answer wanted
  rw [hq, ho', hs, hc]
  rfl

/-- C127: a transport solver by GMRES within and over the groups, made from an input that holds no solver database, uses the
    `inner_` settings within the groups and the `outer_` settings over them. -/
theorem C127_transport_defaults (e : Env) (h : Store K) (a n1 n2 n3 : Nat) (b : InputDB K) (ha : h a = some b)
    (so : Sound h b) (f1 : h n1 = none) (f2 : h n2 = none) (f3 : h n3 = none) (d12 : n1 ≠ n2) (d13 : n1 ≠ n3) (d23 : n2 ≠ n3)
    (q : String) (hq : Entry b .str "equation" "dd" q) (hqd : q ≠ "diffusion") (hsw : Managers.sweepable e.dim q = true)
    (ho : b.get .str "outer_solver" = some "GMRES") (hi : b.get .str "inner_solver" = some "GMRES")
    (hodb : ∀ t, b.get t "outer_solver_db" = none) (hidb : ∀ t, b.get t "inner_solver_db" = none)
    (hcut : ∀ t, b.get t "outer_krylov_group_cutoff" = none) (hadj : ∀ t, b.get t "adjoint" = none)
    (hblk : e.block none none = some true) (pc : String) (hpc : Entry b .str "outer_pc_type" "none" pc)
    (hpn : pc ≠ "mgtcdsa")
    (tol : K) (m l : Int) (ht : Entry b .dbl "outer_tolerance" (1 / 10 ^ 5 : K) tol)
    (hm : Entry b .int "outer_max_iters" (100 : Int) m) (hl : Entry b .int "outer_print_level" (2 : Int) l)
    (tol' : K) (m' l' : Int) (ht' : Entry b .dbl "inner_tolerance" (1 / 10 ^ 5 : K) tol')
    (hm' : Entry b .int "inner_max_iters" (100 : Int) m') (hl' : Entry b .int "inner_print_level" (2 : Int) l') :
    (step e h (.solver a n1 n2 n3)).1 =
      .solver (.ok ⟨some ⟨.gmres 30, tol', tol', m', false, l'⟩, some ⟨.gmres 30, tol, tol, m, false, l⟩, none⟩) := by
  rw [C127_made e h a n1 n2 n3 b ha so f1 f2 f3 d12 d13 d23]
  have hs : settings b "outer" = some (tol, m, l) := (settings_entry b "outer" tol m l).2 ⟨hm, ht, hl⟩
  have hs' : settings b "inner" = some (tol', m', l') := (settings_entry b "inner" tol' m' l').2 ⟨hm', ht', hl'⟩
  have r1 : readStr b "equation" "dd" = some q := (read_entry b .str _ _ _).2 hq
  have r2 : readStr b "outer_solver" "GS" = some "GMRES" := (read_entry b .str _ _ _).2 (Or.inr ho)
  have r3 : readStr b "inner_solver" "SI" = some "GMRES" := (read_entry b .str _ _ _).2 (Or.inr hi)
  have r4 : readStr b "outer_pc_type" "none" = some pc := (read_entry b .str _ _ _).2 hpc
  have no : ∀ k, (∀ t, b.get t k = none) → b.check k = false := fun k hk => by
    by_contra hn
    obtain ⟨t, ht⟩ := (check_iff b k).1 (by simpa using hn)
    rw [hk t] at ht; cases ht
  have w1 : wanted h b "outer_solver_db" "outer" = .ok ⟨.gmres 30, tol, tol, m, false, l⟩ := by
    unfold wanted; rw [hs, no _ hodb]; rfl
  have w2 : wanted h b "inner_solver_db" "inner" = .ok ⟨.gmres 30, tol', tol', m', false, l'⟩ := by
    unfold wanted; rw [hs', no _ hidb]; rfl
  have w3 : wantedInner e h b = .ok (some ⟨.gmres 30, tol', tol', m', false, l'⟩) := by
    unfold wantedInner; rw [r3, r1, w2]; simp [hsw]; rfl
  have c1 : readOpt b "outer_krylov_group_cutoff" = some none := by unfold readOpt; rw [no _ hcut]; rfl
  have c2 : readOpt b "adjoint" = some none := by unfold readOpt; rw [no _ hadj]; rfl
  unfold answer
  rw [r1, r2]
  dsimp only
  rw [if_neg hqd, if_neg (by decide), if_pos rfl, w3, c1, c2]
  dsimp only [Except.bind]
  rw [hblk, w1, r4]
  dsimp only [Except.bind]
  rw [if_neg hpn]

/-- C127: making a solver changes no database but the input, and in the input no entry but the two under which solver
    databases are kept; there it only adds a database holding the settings of the input where there was none.  In
    particular the coarse problem of the transport-corrected preconditioner leaves no trace. -/
theorem C127_input_kept (e : Env) (h : Store K) (a n1 n2 n3 : Nat) (b : InputDB K) (ha : h a = some b) (so : Sound h b)
    (f1 : h n1 = none) (f2 : h n2 = none) (f3 : h n3 = none) (d12 : n1 ≠ n2) (d13 : n1 ≠ n3) (d23 : n2 ≠ n3) :
    Grown solverKeys a h (step e h (.solver a n1 n2 n3)).2 :=
  (setSolver_spec e h a n1 n2 n3 b ha so f1 f2 f3 d12 d13 d23).2.1

/-! ### Histories -/

/-- The actions on databases that the program itself does. -/
def Act.client : Act K → Bool
  | .new _ => true
  | .put _ _ => true
  | .copy _ _ => true
  | _ => false

/-- The action makes a solver for a multigroup problem. -/
def Act.solving : Act K → Bool
  | .solver _ _ _ _ => true
  | _ => false

/-- An action a program can do: it works on databases it made (`p`), puts pointers to such databases only (and
    nothing else under the keys of solver databases), and what it makes
    gets an address not in use (`h`). -/
def Ok (h p : Store K) : Act K → Prop
  | .new a => h a = none
  | .put a o => (∃ b, p a = some b) ∧ (o.key ∈ solverKeys.map Prod.fst → o.ty = .db) ∧
      ∀ k (v : Nat), (((InputDB.empty K).put o.ty o.key o.val).get .db k : Option Nat) = some v → ∃ b, p v = some b
  | .copy a b => (∃ c, p a = some c) ∧ ∃ c, p b = some c
  | .solver a n1 n2 n3 => (∃ c, p a = some c) ∧ h n1 = none ∧ h n2 = none ∧ h n3 = none ∧ n1 ≠ n2 ∧ n1 ≠ n3 ∧ n2 ≠ n3
  | .eigen _ a => ∃ c, p a = some c
  | .rom a n1 n2 n3 => (∃ c, p a = some c) ∧ h n1 = none ∧ h n2 = none ∧ h n3 = none ∧ n1 ≠ n2 ∧ n1 ≠ n3 ∧ n2 ≠ n3

/-- The store with the program's own actions only. -/
def own1 (e : Env) (p : Store K) (x : Act K) : Store K := if x.client then (step e p x).2 else p

/-- A history of possible actions. -/
def Valid (e : Env) : Store K → Store K → List (Act K) → Prop
  | _, _, [] => True
  | h, p, x :: xs => Ok h p x ∧ Valid e (step e h x).2 (own1 e p x) xs

/-- The settings of solvers. -/
def aSetting (k : String) : Prop := settingKey "inner" k ∨ settingKey "outer" k

/-- A history in which settings are put only before the first solver is made (`m`: one has been), and no reduced-order
    solver is made. -/
def Settled : Bool → List (Act K) → Prop
  | _, [] => True
  | m, x :: xs => (∀ a o, x = .put a o → m = true → ¬ aSetting o.key) ∧ (∀ a n1 n2 n3, x ≠ .rom a n1 n2 n3) ∧
      Settled (m || x.solving) xs

/-- Keys written by `EigenGD`. -/
def gdKeys : List String := ["eigen_solver_type", "eigen_solver_which_value"]

/-- The store with solvers made (`h`) against that without (`p`): `g` says whether `EigenGD` was among them and `m` whether
    a multigroup solver was. -/
structure Rel (g m : Bool) (h p : Store K) : Prop where
  sound : ∀ a c, p a = some c → Sound p c
  like : ∀ a c, p a = some c → ∃ b, h a = some b ∧
    (∀ k, k ∉ solverKeys.map Prod.fst → ∀ t, (g = true → k ∈ gdKeys → t = .db) → b.get t k = c.get t k) ∧
    ∀ kp ∈ solverKeys, (∀ t, b.get t kp.1 = c.get t kp.1) ∨
      (m = true ∧ c.check kp.1 = false ∧ ∃ n s, p n = none ∧ settings c kp.2 = some s ∧ h n = some (madeDb s) ∧
        (b.get .db kp.1 : Option Nat) = some n ∧ ∀ t, t ≠ .db → b.get t kp.1 = none)

theorem Rel.soundH {g m : Bool} {h p : Store K} (R : Rel g m h p) {a : Nat} {c b : InputDB K} (hc : p a = some c)
    (hb : h a = some b) : Sound h b := by
  intro k v hv
  obtain ⟨b', hb', e1, c1⟩ := R.like a c hc
  obtain rfl := Option.some.inj (hb.symm.trans hb')
  have keep : (c.get .db k : Option Nat) = some v → ∃ d, h v = some d := fun hh => by
    obtain ⟨d, hd⟩ := R.sound a c hc k v hh
    obtain ⟨d', hd', _⟩ := R.like v d hd
    exact ⟨d', hd'⟩
  by_cases hk : k ∈ solverKeys.map Prod.fst
  · obtain ⟨kp, hkp, rfl⟩ := List.mem_map.1 hk
    rcases c1 kp hkp with c | ⟨_, _, n, s, _, _, hm, hd, _⟩
    · exact keep ((c .db).symm.trans hv)
    · rw [hd] at hv
      obtain rfl := Option.some.inj hv
      exact ⟨_, hm⟩
  · exact keep ((e1 k hk .db fun _ _ => rfl).symm.trans hv)

theorem Rel.none {g m : Bool} {h p : Store K} (R : Rel g m h p) {a : Nat} (ha : h a = none) : p a = none := by
  cases hp : p a with
  | none => rfl
  | some c =>
    obtain ⟨b, hb, _⟩ := R.like a c hp
    rw [ha] at hb; cases hb

theorem not_gd_of_setting {kp : String × String} (hkp : kp ∈ solverKeys) {k : String} (hk : settingKey kp.2 k) :
    k ∉ gdKeys := by
  simp only [solverKeys, List.mem_cons, List.not_mem_nil, or_false] at hkp
  rcases hkp with rfl | rfl <;> rcases hk with rfl | rfl | rfl <;> decide

theorem not_gd_of_lin {k : String} (hk : linKey k) : k ∉ gdKeys := by
  simp only [linKey, linearKeys, List.map_cons, List.map_nil, List.mem_cons, List.not_mem_nil, or_false] at hk
  rcases hk with rfl | rfl | rfl | rfl | rfl | rfl | rfl | rfl | rfl <;> decide

theorem Rel.solver {e : Env} {g m : Bool} {h p : Store K} (R : Rel g m h p) {a n1 n2 n3 : Nat}
    (ok : Ok h p (.solver a n1 n2 n3)) : Rel g true (step e h (.solver a n1 n2 n3)).2 p := by
  obtain ⟨⟨c, hc⟩, f1, f2, f3, d12, d13, d23⟩ := ok
  obtain ⟨b, hb, e1, c1⟩ := R.like a c hc
  have G := C127_input_kept e h a n1 n2 n3 b hb (R.soundH hc hb) f1 f2 f3 d12 d13 d23
  generalize (step e h (.solver a n1 n2 n3)).2 = h' at G
  have key : ∀ n s, p n = Option.none → h n = some (madeDb s) → h' n = some (madeDb s) := fun n s hn hs =>
    G.others n (by rintro rfl; rw [hc] at hn; cases hn) _ hs
  refine ⟨R.sound, fun a' c' hc' => ?_⟩
  by_cases ha : a' = a
  · subst ha
    obtain rfl := Option.some.inj (hc.symm.trans hc')
    obtain ⟨b', hb', x1, x2⟩ := G.input b hb
    refine ⟨b', hb', fun k hk t ht => (x1 t k hk).trans (e1 k hk t ht), fun kp hkp => ?_⟩
    rcases x2 kp hkp with x | ⟨y1, n, s, y2, y3, y4, y5, y6⟩
    · rcases c1 kp hkp with y | ⟨y0, y1, n, s, y2, y3, y4, y5, y6⟩
      · exact Or.inl fun t => (x t).trans (y t)
      · exact Or.inr ⟨rfl, y1, n, s, y2, y3, key n s y2 y4, (x .db).trans y5, fun t ht => (x t).trans (y6 t ht)⟩
    · rcases c1 kp hkp with y | ⟨_, _, n', _, _, _, _, z5, _⟩
      · refine Or.inr ⟨rfl, (check_congr y).symm.trans y1, n, s, R.none y2, ?_, y4, y5, y6⟩
        rw [← y3]
        refine settings_congr fun k hk t => (e1 k (solverKeys_apart kp hkp k hk) t ?_).symm
        exact fun _ hg => absurd hg (not_gd_of_setting hkp hk)
      · have := check_false y1 .db
        rw [this] at z5; cases z5
  · obtain ⟨b', hb', x1, x2⟩ := R.like a' c' hc'
    refine ⟨b', G.others a' ha b' hb', x1, fun kp hkp => ?_⟩
    rcases x2 kp hkp with y | ⟨y0, y1, n, s, y2, y3, y4, y5, y6⟩
    · exact Or.inl y
    · exact Or.inr ⟨rfl, y1, n, s, y2, y3, key n s y2 y4, y5, y6⟩

theorem Rel.new {e : Env} {g m : Bool} {h p : Store K} (R : Rel g m h p) {a : Nat} (ok : Ok h p (.new a)) :
    Rel g m (step e h (.new a)).2 (step e p (.new a)).2 := by
  have hpa : p a = Option.none := R.none ok
  have ok : h a = Option.none := ok
  change Rel g m (h.set a _) (p.set a _)
  have em : ∀ t k, (InputDB.empty K).get t k = Option.none := by intro t k; cases t <;> rfl
  refine ⟨fun a' c' hc' k v hv => ?_, fun a' c' hc' => ?_⟩
  · by_cases ha : a' = a
    · subst ha
      rw [set_same] at hc'
      obtain rfl := Option.some.inj hc'
      have := em .db k
      rw [this] at hv; cases hv
    · rw [set_ne _ _ _ _ ha] at hc'
      obtain ⟨d, hd⟩ := R.sound a' c' hc' k v hv
      refine ⟨d, ?_⟩
      rw [set_ne _ _ _ _ (by rintro rfl; rw [hpa] at hd; cases hd), hd]
  · by_cases ha : a' = a
    · subst ha
      rw [set_same] at hc'
      obtain rfl := Option.some.inj hc'
      exact ⟨_, set_same _ _ _, fun _ _ _ _ => rfl, fun _ _ => Or.inl fun _ => rfl⟩
    · rw [set_ne _ _ _ _ ha] at hc'
      obtain ⟨b', hb', x1, x2⟩ := R.like a' c' hc'
      refine ⟨b', by rw [set_ne _ _ _ _ ha, hb'], x1, fun kp hkp => ?_⟩
      rcases x2 kp hkp with y | ⟨y0, y1, n, s, y2, y3, y4, y5, y6⟩
      · exact Or.inl y
      · have hna : n ≠ a := by rintro rfl; rw [ok] at y4; cases y4
        refine Or.inr ⟨y0, y1, n, s, ?_, y3, ?_, y5, y6⟩
        · rw [set_ne _ _ _ _ hna, y2]
        · rw [set_ne _ _ _ _ hna, y4]

theorem Rel.copy {e : Env} {g m : Bool} {h p : Store K} (R : Rel g m h p) {a a0 : Nat} (ok : Ok h p (.copy a a0)) :
    Rel g m (step e h (.copy a a0)).2 (step e p (.copy a a0)).2 := by
  obtain ⟨⟨c, hc⟩, c0, hc0⟩ := ok
  obtain ⟨b0, hb0, z1, z2⟩ := R.like a0 c0 hc0
  have s1 : (step e h (.copy a a0)).2 = h.set a b0 := by simp only [step]; rw [hb0]
  have s2 : (step e p (.copy a a0)).2 = p.set a c0 := by simp only [step]; rw [hc0]
  rw [s1, s2]
  have dom : ∀ v d, p v = some d → ∃ d', p.set a c0 v = some d' := fun v d hd => by
    by_cases hv : v = a
    · subst hv; exact ⟨_, set_same _ _ _⟩
    · exact ⟨d, by rw [set_ne _ _ _ _ hv, hd]⟩
  refine ⟨fun a' c' hc' k v hv => ?_, fun a' c' hc' => ?_⟩
  · by_cases ha : a' = a
    · subst ha
      rw [set_same] at hc'
      obtain rfl := Option.some.inj hc'
      obtain ⟨d, hd⟩ := R.sound a0 c0 hc0 k v hv
      exact dom v d hd
    · rw [set_ne _ _ _ _ ha] at hc'
      obtain ⟨d, hd⟩ := R.sound a' c' hc' k v hv
      exact dom v d hd
  · have done : ∀ (b' c' : InputDB K),
        (∀ kp ∈ solverKeys, (∀ t, b'.get t kp.1 = c'.get t kp.1) ∨
          (m = true ∧ c'.check kp.1 = false ∧ ∃ n s, p n = Option.none ∧ settings c' kp.2 = some s ∧ h n = some (madeDb s) ∧
            (b'.get .db kp.1 : Option Nat) = some n ∧ ∀ t, t ≠ .db → b'.get t kp.1 = Option.none)) →
        ∀ kp ∈ solverKeys, (∀ t, b'.get t kp.1 = c'.get t kp.1) ∨
          (m = true ∧ c'.check kp.1 = false ∧ ∃ n s, p.set a c0 n = Option.none ∧ settings c' kp.2 = some s ∧
            h.set a b0 n = some (madeDb s) ∧
            (b'.get .db kp.1 : Option Nat) = some n ∧ ∀ t, t ≠ .db → b'.get t kp.1 = Option.none) := by
      intro b' c' x2 kp hkp
      rcases x2 kp hkp with y | ⟨y0, y1, n, s, y2, y3, y4, y5, y6⟩
      · exact Or.inl y
      · have hna : n ≠ a := by rintro rfl; rw [hc] at y2; cases y2
        refine Or.inr ⟨y0, y1, n, s, ?_, y3, ?_, y5, y6⟩
        · rw [set_ne _ _ _ _ hna, y2]
        · rw [set_ne _ _ _ _ hna, y4]
    by_cases ha : a' = a
    · subst ha
      rw [set_same] at hc'
      obtain rfl := Option.some.inj hc'
      exact ⟨_, set_same _ _ _, z1, done _ _ z2⟩
    · rw [set_ne _ _ _ _ ha] at hc'
      obtain ⟨b', hb', x1, x2⟩ := R.like a' c' hc'
      exact ⟨b', by rw [set_ne _ _ _ _ ha, hb'], x1, done _ _ x2⟩

theorem Rel.put {e : Env} {g m : Bool} {h p : Store K} (R : Rel g m h p) {a : Nat} {o : PutOp K} (ok : Ok h p (.put a o))
    (hs : m = true → ¬ aSetting o.key) :
    Rel g m (step e h (.put a o)).2 (step e p (.put a o)).2 := by
  obtain ⟨⟨c, hc⟩, hty, hptr⟩ := ok
  obtain ⟨b, hb, z1, z2⟩ := R.like a c hc
  have s1 : (step e h (.put a o)).2 = h.set a (b.put o.ty o.key o.val) := by simp only [step]; rw [hb]
  have s2 : (step e p (.put a o)).2 = p.set a (c.put o.ty o.key o.val) := by simp only [step]; rw [hc]
  rw [s1, s2]
  generalize hcn : c.put o.ty o.key o.val = cn
  have dom : ∀ v d, p v = some d → ∃ d', p.set a cn v = some d' := fun v d hd => by
    by_cases hv : v = a
    · subst hv; exact ⟨_, set_same _ _ _⟩
    · exact ⟨d, by rw [set_ne _ _ _ _ hv, hd]⟩
  have gp : ∀ (x y : InputDB K) t k, x.get t k = y.get t k →
      (x.put o.ty o.key o.val).get t k = (y.put o.ty o.key o.val).get t k := fun x y t k hxy => by
    rw [get_put, get_put, hxy]
  refine ⟨fun a' c' hc' k v hv => ?_, fun a' c' hc' => ?_⟩
  · by_cases ha : a' = a
    · subst ha
      rw [set_same] at hc'
      obtain rfl := Option.some.inj hc'
      by_cases hh : o.ty = .db ∧ o.key = k
      · have : (((InputDB.empty K).put o.ty o.key o.val).get .db k : Option Nat) = some v := by
          rw [← hv, ← hcn]
          change InputDB.get _ _ _ = InputDB.get _ _ _
          rw [get_put, get_put, dif_pos hh, dif_pos hh]
        obtain ⟨d, hd⟩ := hptr k v this
        exact dom v d hd
      · have : (c.get .db k : Option Nat) = some v := by
          rw [← hv, ← hcn]
          change InputDB.get _ _ _ = InputDB.get _ _ _
          rw [get_put, dif_neg hh]
        obtain ⟨d, hd⟩ := R.sound a' c hc k v this
        exact dom v d hd
    · rw [set_ne _ _ _ _ ha] at hc'
      obtain ⟨d, hd⟩ := R.sound a' c' hc' k v hv
      exact dom v d hd
  · have na : ∀ n, p n = Option.none → n ≠ a := by rintro n hn rfl; rw [hc] at hn; cases hn
    by_cases ha : a' = a
    · subst ha
      rw [set_same] at hc'
      obtain rfl := Option.some.inj hc'
      subst hcn
      refine ⟨_, set_same _ _ _, fun k hk t ht => gp _ _ _ _ (z1 k hk t ht), fun kp hkp => ?_⟩
      rcases z2 kp hkp with y | ⟨y0, y1, n, s, y2, y3, y4, y5, y6⟩
      · exact Or.inl fun t => gp _ _ _ _ (y t)
      · by_cases hkey : o.key = kp.1
        · have hdb := hty (by rw [hkey]; exact List.mem_map_of_mem hkp)
          refine Or.inl fun t => ?_
          rw [get_put, get_put]
          by_cases ht : o.ty = t
          · rw [dif_pos ⟨ht, hkey⟩, dif_pos ⟨ht, hkey⟩]
          · rw [dif_neg fun h => ht h.1, dif_neg fun h => ht h.1]
            rw [check_false y1 t, y6 t (fun hh => ht (hdb.trans hh.symm))]
        · refine Or.inr ⟨y0, ?_, n, s, ?_, ?_, ?_, ?_, ?_⟩
          · rw [check_congr fun t => get_put_ne c o.ty o.key o.val t kp.1 hkey]; exact y1
          · rw [set_ne _ _ _ _ (na n y2), y2]
          · rw [← y3]
            refine settings_congr fun k hk t => get_put_ne _ _ _ _ _ _ ?_
            rintro rfl
            refine hs y0 ?_
            simp only [solverKeys, List.mem_cons, List.not_mem_nil, or_false] at hkp
            rcases hkp with rfl | rfl
            · exact Or.inl hk
            · exact Or.inr hk
          · rw [set_ne _ _ _ _ (na n y2), y4]
          · exact (get_put_ne _ _ _ _ _ _ hkey).trans y5
          · exact fun t ht => (get_put_ne _ _ _ _ _ _ hkey).trans (y6 t ht)
    · rw [set_ne _ _ _ _ ha] at hc'
      obtain ⟨b', hb', x1, x2⟩ := R.like a' c' hc'
      refine ⟨b', by rw [set_ne _ _ _ _ ha, hb'], x1, fun kp hkp => ?_⟩
      rcases x2 kp hkp with y | ⟨y0, y1, n, s, y2, y3, y4, y5, y6⟩
      · exact Or.inl y
      · refine Or.inr ⟨y0, y1, n, s, ?_, y3, ?_, y5, y6⟩
        · rw [set_ne _ _ _ _ (na n y2), y2]
        · rw [set_ne _ _ _ _ (na n y2), y4]

theorem Rel.eigen {e : Env} {g m : Bool} {h p : Store K} (R : Rel g m h p) {k : Eig} {a : Nat} (ok : Ok h p (.eigen k a))
    (hg : g = false → k ≠ .gd) : Rel g m (step e h (.eigen k a)).2 p := by
  obtain ⟨c, hc⟩ := ok
  obtain ⟨b, hb, z1, z2⟩ := R.like a c hc
  change Rel g m (makeEigen h k a).2 p
  unfold makeEigen
  rw [hb]
  dsimp only
  by_cases hk : k = .gd
  swap
  · rw [if_neg hk]
    split
    · split
      · exact R
      · split
        · exact R
        · exact R
    · exact R
  · subst hk
    have hg : g = true := by
      cases g with
      | true => rfl
      | false => exact absurd rfl (hg rfl)
    cases hce : b.check "eigen_solver_db" with
    | false => simpa using R
    | true =>
      simp only [if_true]
      cases hq : (b.get .db "eigen_solver_db" : Option Nat) with
      | none => exact R
      | some q =>
        have hqc : (c.get .db "eigen_solver_db" : Option Nat) = some q :=
          (z1 "eigen_solver_db" (by decide) .db fun _ _ => rfl).symm.trans hq
        obtain ⟨dc, hdc⟩ := R.sound a c hc _ _ hqc
        obtain ⟨d, hd, w1, w2⟩ := R.like q dc hdc
        dsimp only
        rw [hd]
        dsimp only
        have na : ∀ n, p n = Option.none → n ≠ q := by rintro n hn rfl; rw [hdc] at hn; cases hn
        have gd : ∀ t k, (k ∈ gdKeys → t = .db) →
            ((d.put .str "eigen_solver_type" "gd").put .int "eigen_solver_which_value" (1 : Int)).get t k = d.get t k := by
          intro t k hk
          refine (C05_put_isolated _ ⟨.int, "eigen_solver_which_value", (1 : Int)⟩ t k ?_).trans
            (C05_put_isolated _ ⟨.str, "eigen_solver_type", "gd"⟩ t k ?_)
          · by_cases hkk : "eigen_solver_which_value" = k
            · subst hkk; left; rw [hk (by decide)]; exact fun h => by cases h
            · exact Or.inr hkk
          · by_cases hkk : "eigen_solver_type" = k
            · subst hkk; left; rw [hk (by decide)]; exact fun h => by cases h
            · exact Or.inr hkk
        refine ⟨R.sound, fun a' c' hc' => ?_⟩
        by_cases ha : a' = q
        · subst ha
          obtain rfl := Option.some.inj (hdc.symm.trans hc')
          refine ⟨_, set_same _ _ _, fun k hk t ht => (gd t k fun hm => ht hg hm).trans (w1 k hk t ht), fun kp hkp => ?_⟩
          have hne : kp.1 ∉ gdKeys := by
            simp only [solverKeys, List.mem_cons, List.not_mem_nil, or_false] at hkp
            rcases hkp with rfl | rfl <;> decide
          have gk : ∀ t, ((d.put .str "eigen_solver_type" "gd").put .int "eigen_solver_which_value" (1 : Int)).get t kp.1 =
              d.get t kp.1 := fun t => gd t kp.1 fun hm => absurd hm hne
          rcases w2 kp hkp with y | ⟨y0, y1, n, s, y2, y3, y4, y5, y6⟩
          · exact Or.inl fun t => (gk t).trans (y t)
          · refine Or.inr ⟨y0, y1, n, s, y2, y3, ?_, (gk .db).trans y5, fun t ht => (gk t).trans (y6 t ht)⟩
            rw [set_ne _ _ _ _ (na n y2), y4]
        · obtain ⟨b', hb', x1, x2⟩ := R.like a' c' hc'
          refine ⟨b', by rw [set_ne _ _ _ _ ha, hb'], x1, fun kp hkp => ?_⟩
          rcases x2 kp hkp with y | ⟨y0, y1, n, s, y2, y3, y4, y5, y6⟩
          · exact Or.inl y
          · refine Or.inr ⟨y0, y1, n, s, y2, y3, ?_, y5, y6⟩
            rw [set_ne _ _ _ _ (na n y2), y4]

theorem run_cons (e : Env) (h : Store K) (x : Act K) (H : List (Act K)) : run e h (x :: H) = run e (step e h x).2 H := rfl

theorem rel_run (e : Env) (g : Bool) (H : List (Act K)) : ∀ (m : Bool) (h p : Store K), Rel g m h p → Valid e h p H →
    Settled m H → (g = false → ∀ a, Act.eigen .gd a ∉ H) →
    ∃ m', Rel g m' (run e h H) (run e p (H.filter Act.client)) := by
  induction H with
  | nil => exact fun m h p R _ _ _ => ⟨m, R⟩
  | cons x H ih =>
    intro m h p R hv hs hg
    obtain ⟨ok, hv⟩ := hv
    obtain ⟨hp, hr, hs⟩ := hs
    have hg' : g = false → ∀ a, Act.eigen .gd a ∉ H := fun hf a hm => hg hf a (List.mem_cons_of_mem _ hm)
    rw [run_cons]
    cases x with
    | new a =>
      rw [List.filter_cons_of_pos rfl, run_cons]
      exact ih _ _ _ (by simpa [Act.solving] using R.new (e := e) ok) hv hs hg'
    | put a o =>
      rw [List.filter_cons_of_pos rfl, run_cons]
      exact ih _ _ _ (by simpa [Act.solving] using R.put (e := e) ok (hp a o rfl)) hv hs hg'
    | copy a b =>
      rw [List.filter_cons_of_pos rfl, run_cons]
      exact ih _ _ _ (by simpa [Act.solving] using R.copy (e := e) ok) hv hs hg'
    | solver a n1 n2 n3 =>
      rw [List.filter_cons_of_neg (by simp [Act.client])]
      exact ih _ _ _ (by simpa [Act.solving] using R.solver (e := e) ok) hv hs hg'
    | eigen k a =>
      rw [List.filter_cons_of_neg (by simp [Act.client])]
      have hne : g = false → k ≠ .gd := by
        rintro hf rfl
        exact hg hf a (by simp)
      exact ih _ _ _ (by simpa [Act.solving] using R.eigen (e := e) ok hne) hv hs hg'
    | rom a n1 n2 n3 => exact absurd rfl (hr a n1 n2 n3)

theorem rel_nothing (g m : Bool) : Rel g m (nothing : Store K) nothing :=
  ⟨fun _ _ h => (by cases h), fun _ _ h => (by cases h)⟩

theorem Rel.wanted {g m : Bool} {h p : Store K} (R : Rel g m h p) {a : Nat} {b c : InputDB K} (hc : p a = some c)
    (hb : h a = some b) (kp : String × String) (hkp : kp ∈ solverKeys) :
    wanted h b kp.1 kp.2 = wanted p c kp.1 kp.2 := by
  obtain ⟨b', hb', x1, x2⟩ := R.like a c hc
  obtain rfl := Option.some.inj (hb.symm.trans hb')
  have hset : AgreeOn (settingKey kp.2) b c := fun k hk t =>
    x1 k (solverKeys_apart kp hkp k hk) t fun _ hg => absurd hg (not_gd_of_setting hkp hk)
  rcases x2 kp hkp with y | ⟨y0, y1, n, s, y2, y3, y4, y5, y6⟩
  · refine wanted_congr hset y fun q hq => ?_
    obtain ⟨d, hd⟩ := R.sound a c hc _ q hq
    obtain ⟨d', hd', w1, _⟩ := R.like q d hd
    exact ⟨d, d', hd, hd', fun k hk t => w1 k (linKey_apart hk) t fun _ hg => absurd hg (not_gd_of_lin hk)⟩
  · have hck : b.check kp.1 = true := (check_iff _ _).2 ⟨.db, by rw [show b.get .db kp.1 = some n from y5]; rfl⟩
    unfold SolverDb.wanted
    rw [settings_congr hset, y3, y1, hck]
    simp only [if_true, Bool.false_eq_true, if_false]
    rw [y5]
    exact create_made _ _ s y4

theorem Rel.answer {e : Env} {g m : Bool} {h p : Store K} (R : Rel g m h p) {a : Nat} {b c : InputDB K}
    (hc : p a = some c) (hb : h a = some b) : answer e h b = answer e p c := by
  have wo := R.wanted hc hb ("outer_solver_db", "outer") (by simp [solverKeys])
  have wi := R.wanted hc hb ("inner_solver_db", "inner") (by simp [solverKeys])
  obtain ⟨b', hb', x1, _⟩ := R.like a c hc
  obtain rfl := Option.some.inj (hb.symm.trans hb')
  have rd : ∀ k, k ∉ solverKeys.map Prod.fst → k ∉ gdKeys → ∀ t, b.get t k = c.get t k := fun k h1 h2 t =>
    x1 k h1 t fun _ hg => absurd hg h2
  have wii : wantedInner e h b = wantedInner e p c :=
    wantedInner_congr wi (rd _ (by decide) (by decide)) (rd _ (by decide) (by decide))
  unfold SolverDb.answer
  dsimp only at wo
  rw [wo, wii, readStr_congr (rd "equation" (by decide) (by decide)), readStr_congr (rd "outer_solver" (by decide) (by decide)),
    readOpt_congr (rd "outer_krylov_group_cutoff" (by decide) (by decide)), readOpt_congr (rd "adjoint" (by decide) (by decide)),
    readStr_congr (rd "outer_pc_type" (by decide) (by decide)),
    readInt_congr (rd "mgpc_number_polar_octant" (by decide) (by decide)),
    readInt_congr (rd "mgpc_number_azimuth_octant" (by decide) (by decide))]

theorem Rel.eigenResult {m : Bool} {h p : Store K} (R : Rel false m h p) (k : Eig) {a : Nat} {c : InputDB K}
    (hc : p a = some c) : (makeEigen h k a).1 = (makeEigen p k a).1 := by
  obtain ⟨b, hb, x1, _⟩ := R.like a c hc
  have rd : ∀ t, b.get t "eigen_solver_db" = c.get t "eigen_solver_db" := fun t =>
    x1 _ (by decide) t fun h => by cases h
  unfold makeEigen
  rw [hb, hc]
  dsimp only
  rw [check_congr rd]
  cases c.check "eigen_solver_db" with
  | false => simp only [Bool.false_eq_true, if_false]; split <;> rfl
  | true =>
    simp only [if_true]
    have rd' : (b.get .db "eigen_solver_db" : Option Nat) = (c.get .db "eigen_solver_db" : Option Nat) := rd .db
    cases hq : (c.get .db "eigen_solver_db" : Option Nat) with
    | none => rw [hq] at rd'; rw [rd']
    | some q =>
      rw [hq] at rd'; rw [rd']
      obtain ⟨d, hd⟩ := R.sound a c hc _ q hq
      obtain ⟨d', hd', w1, _⟩ := R.like q d hd
      dsimp only
      rw [hd, hd']
      dsimp only
      have ag : AgreeOn eigKey d' d := fun k hk t => w1 k (eigKey_apart hk) t fun h => by cases h
      split
      · refine createEig_congr fun k hk t => ?_
        have h1 := get_put ((d'.put .str "eigen_solver_type" "gd")) ⟨.int, "eigen_solver_which_value", (1 : Int)⟩ t k
        have h2 := get_put ((d.put .str "eigen_solver_type" "gd")) ⟨.int, "eigen_solver_which_value", (1 : Int)⟩ t k
        have h3 := get_put d' ⟨.str, "eigen_solver_type", "gd"⟩ t k
        have h4 := get_put d ⟨.str, "eigen_solver_type", "gd"⟩ t k
        rw [ag k hk t] at h3
        exact h1.trans (by rw [h3.trans h4.symm]; exact h2.symm)
      · exact createEig_congr ag

/-- C127 (partial: missing are histories in which settings are put after a solver was made, or a reduced-order solver is
    made; see `C127_claim_fails`).  Whatever a program did before — databases made, filled and copied over one another,
    solvers made from them in any order — a solver gets what the program's own entries ask for: it is the one that would
    be made if no solver had been made before. -/
theorem C127_history_partial (e : Env) (H : List (Act K)) (hv : Valid e nothing nothing H) (hs : Settled false H)
    (a n1 n2 n3 : Nat)
    (ok : Ok (run e nothing H) (run e nothing (H.filter Act.client)) (.solver a n1 n2 n3)) :
    (step e (run e nothing H) (.solver a n1 n2 n3)).1 =
      (step e (run e nothing (H.filter Act.client)) (.solver a n1 n2 n3)).1 := by
  obtain ⟨m, R⟩ := rel_run e true H false nothing nothing (rel_nothing _ _) hv hs (by simp)
  obtain ⟨⟨c, hc⟩, f1, f2, f3, d12, d13, d23⟩ := ok
  obtain ⟨b, hb, _⟩ := R.like a c hc
  rw [C127_made e _ a n1 n2 n3 b hb (R.soundH hc hb) f1 f2 f3 d12 d13 d23,
    C127_made e _ a n1 n2 n3 c hc (R.sound a c hc) (R.none f1) (R.none f2) (R.none f3) d12 d13 d23, R.answer hc hb]

/-- C127 (partial: missing are histories with `EigenGD`; see `C127_gd_fails`).  The same for eigenvalue solvers. -/
theorem C127_eigen_history_partial (e : Env) (H : List (Act K)) (hv : Valid e nothing nothing H) (hs : Settled false H)
    (hgd : ∀ a, Act.eigen .gd a ∉ H) (k : Eig) (a : Nat)
    (ok : Ok (run e nothing H) (run e nothing (H.filter Act.client)) (.eigen k a)) :
    (step e (run e nothing H) (.eigen k a)).1 = (step e (run e nothing (H.filter Act.client)) (.eigen k a)).1 := by
  obtain ⟨m, R⟩ := rel_run e false H false nothing nothing (rel_nothing _ _) hv hs (fun _ => hgd)
  obtain ⟨c, hc⟩ := ok
  exact congrArg Got.eigen (R.eigenResult k hc)

/-! ### Settings put after a solver was made are not seen -/

/-- Whatever goes on, except that nothing is written into the database at `q` and nothing put under `outer_solver_db` in
    the input at `a`. -/
def HandsOff (e : Env) (a q : Nat) : Store K → List (Act K) → Prop
  | _, [] => True
  | h, x :: xs =>
    (match x with
      | .new v => h v = none
      | .put v o => v ≠ q ∧ (v = a → o.key ≠ "outer_solver_db")
      | .copy v _ => v ≠ q ∧ v ≠ a
      | .solver v n1 n2 n3 => (∃ b, h v = some b ∧ Sound h b) ∧ h n1 = none ∧ h n2 = none ∧ h n3 = none ∧ n1 ≠ n2 ∧
          n1 ≠ n3 ∧ n2 ≠ n3
      | .eigen _ _ => True
      | .rom _ _ _ _ => False) ∧ HandsOff e a q (step e h x).2 xs

/-- The input at `a` holds the database at `q`, which says what `d0` says about linear solvers. -/
def Holds (a q : Nat) (d0 : InputDB K) (h : Store K) : Prop :=
  ∃ b d, h a = some b ∧ (b.get .db "outer_solver_db" : Option Nat) = some q ∧ h q = some d ∧ AgreeOn linKey d d0

theorem Holds.step {e : Env} {a q : Nat} {d0 : InputDB K} {h : Store K} (haq : a ≠ q) (I : Holds a q d0 h) (x : Act K)
    (H : List (Act K)) (hx : HandsOff e a q h (x :: H)) : Holds a q d0 (step e h x).2 := by
  obtain ⟨b, d, ha, hb, hq, ag⟩ := I
  have hx := hx.1
  cases x with
  | new v =>
    have hx : h v = none := hx
    change Holds a q d0 (h.set v _)
    refine ⟨b, d, ?_, hb, ?_, ag⟩
    · rw [set_ne _ _ _ _ (by rintro rfl; rw [hx] at ha; cases ha), ha]
    · rw [set_ne _ _ _ _ (by rintro rfl; rw [hx] at hq; cases hq), hq]
  | put v o =>
    obtain ⟨h1, h2⟩ := hx
    simp only [SolverDb.step]
    cases hv : h v with
    | none => exact ⟨b, d, ha, hb, hq, ag⟩
    | some c =>
      dsimp only
      by_cases hva : v = a
      · subst hva
        obtain rfl := Option.some.inj (ha.symm.trans hv)
        refine ⟨_, d, set_same _ _ _, ?_, ?_, ag⟩
        · exact (get_put_ne _ _ _ _ _ _ (h2 rfl)).trans hb
        · rw [set_ne _ _ _ _ (Ne.symm h1), hq]
      · refine ⟨b, d, ?_, hb, ?_, ag⟩
        · rw [set_ne _ _ _ _ (Ne.symm hva), ha]
        · rw [set_ne _ _ _ _ (Ne.symm h1), hq]
  | copy v w =>
    obtain ⟨h1, h2⟩ := hx
    simp only [SolverDb.step]
    cases hv : h w with
    | none => exact ⟨b, d, ha, hb, hq, ag⟩
    | some c =>
      dsimp only
      refine ⟨b, d, ?_, hb, ?_, ag⟩
      · rw [set_ne _ _ _ _ (Ne.symm h2), ha]
      · rw [set_ne _ _ _ _ (Ne.symm h1), hq]
  | solver v n1 n2 n3 =>
    obtain ⟨⟨c, hc, so⟩, f1, f2, f3, d12, d13, d23⟩ := hx
    have G := C127_input_kept e h v n1 n2 n3 c hc so f1 f2 f3 d12 d13 d23
    obtain ⟨d', hd', kd⟩ := G.isSome hq
    have hb' : ∃ b', (SolverDb.step e h (.solver v n1 n2 n3)).2 a = some b' ∧
        (b'.get .db "outer_solver_db" : Option Nat) = some q := by
      by_cases hva : a = v
      · subst hva
        obtain ⟨b', hb', _, x2⟩ := G.input b ha
        refine ⟨b', hb', ?_⟩
        rcases x2 ("outer_solver_db", "outer") (by simp [solverKeys]) with y | ⟨y1, _⟩
        · exact (y .db).trans hb
        · have := check_false y1 .db
          rw [this] at hb; cases hb
      · exact ⟨b, G.others a hva b ha, hb⟩
    obtain ⟨b', hb', hk⟩ := hb'
    exact ⟨b', d', hb', hk, hd', fun k hk t => (kd t k (linKey_apart hk)).trans (ag k hk t)⟩
  | eigen k v =>
    change Holds a q d0 (makeEigen h k v).2
    have I : Holds a q d0 h := ⟨b, d, ha, hb, hq, ag⟩
    unfold makeEigen
    cases hv : h v with
    | none => exact I
    | some c =>
      dsimp only
      by_cases hgd : k = .gd
      swap
      · rw [if_neg hgd]
        split
        · split
          · exact I
          · split <;> exact I
        · exact I
      · rw [if_pos hgd]
        split
        · split
          · exact I
          · rename_i r hr
            cases hr' : h r with
            | none => exact I
            | some dr =>
              dsimp only
              have gd : ∀ t k, k ∉ gdKeys →
                  ((dr.put .str "eigen_solver_type" "gd").put .int "eigen_solver_which_value" (1 : Int)).get t k =
                    dr.get t k := by
                intro t k hk
                refine (get_put_ne _ _ _ _ _ _ ?_).trans (get_put_ne _ _ _ _ _ _ ?_)
                · rintro rfl; exact hk (by decide)
                · rintro rfl; exact hk (by decide)
              have at' : ∀ p dp, h p = some dp → ∃ dp', (h.set r ((dr.put .str "eigen_solver_type" "gd").put .int
                  "eigen_solver_which_value" (1 : Int))) p = some dp' ∧ ∀ t k, k ∉ gdKeys → dp'.get t k = dp.get t k := by
                intro p dp hp
                by_cases hpr : p = r
                · subst hpr
                  obtain rfl := Option.some.inj (hp.symm.trans hr')
                  exact ⟨_, set_same _ _ _, gd⟩
                · exact ⟨dp, by rw [set_ne _ _ _ _ hpr, hp], fun _ _ _ => rfl⟩
              obtain ⟨b', hb', kb⟩ := at' a b ha
              obtain ⟨d', hd', kd⟩ := at' q d hq
              exact ⟨b', d', hb', (kb .db _ (by decide)).trans hb, hd',
                fun k hk t => (kd t k (not_gd_of_lin hk)).trans (ag k hk t)⟩
        · exact I
  | rom v n1 n2 n3 => exact hx.elim

theorem Holds.run {e : Env} {a q : Nat} {d0 : InputDB K} (haq : a ≠ q) (H : List (Act K)) : ∀ h : Store K, Holds a q d0 h →
    HandsOff e a q h H → Holds a q d0 (run e h H) := by
  induction H with
  | nil => exact fun h I _ => I
  | cons x H ih => exact fun h I hx => ih _ (I.step haq x H hx) hx.2

theorem answer_outer {e : Env} {h : Store K} {b : InputDB K} {m : Made K} {s : LinSolver K} (hm : answer e h b = .ok m)
    (hs : m.outer = some s) : wanted h b "outer_solver_db" "outer" = .ok s := by
  unfold answer at hm
  split at hm
  · split_ifs at hm
    · cases hw : wanted h b "outer_solver_db" "outer" with
      | error f => rw [hw] at hm; cases hm
      | ok s' =>
        rw [hw] at hm
        obtain rfl := Except.ok.inj hm
        exact congrArg Except.ok (Option.some.inj hs)
    · cases hw : wantedInner e h b with
      | error f => rw [hw] at hm; cases hm
      | ok i =>
        rw [hw] at hm
        obtain rfl := Except.ok.inj hm
        cases hs
    · cases hw : wantedInner e h b with
      | error f => rw [hw] at hm; cases hm
      | ok i =>
        rw [hw] at hm
        dsimp only [Except.bind] at hm
        split at hm
        · split at hm
          · cases hm
          · obtain rfl := Except.ok.inj hm
            cases hs
          · cases hwo : wanted h b "outer_solver_db" "outer" with
            | error f => rw [hwo] at hm; cases hm
            | ok s' =>
              rw [hwo] at hm
              dsimp only at hm
              split at hm
              · cases hm
              · split_ifs at hm
                · split at hm
                  · obtain rfl := Except.ok.inj hm
                    exact congrArg Except.ok (Option.some.inj hs)
                  · cases hm
                · obtain rfl := Except.ok.inj hm
                  exact congrArg Except.ok (Option.some.inj hs)
        · cases hm
  · cases hm

/-- C127: once a solver over the groups was made from an input that held no solver database, every later one made from that
    input is the same, with the tolerance, limit and print level of the first, whatever settings are put meanwhile and
    whatever else is made; unless the program puts a solver database itself or writes into the one at `q`. -/
theorem C127_frozen (e : Env) (h : Store K) (a n1 n2 n3 : Nat) (b : InputDB K) (ha : h a = some b) (so : Sound h b)
    (f1 : h n1 = none) (f2 : h n2 = none) (f3 : h n3 = none) (d12 : n1 ≠ n2) (d13 : n1 ≠ n3) (d23 : n2 ≠ n3)
    (hno : ∀ t, b.get t "outer_solver_db" = none) (m : Made K) (s : LinSolver K)
    (hm : (step e h (.solver a n1 n2 n3)).1 = .solver (.ok m)) (hs : m.outer = some s) :
    ∃ q, h q = none ∧ ∀ H, HandsOff e a q (step e h (.solver a n1 n2 n3)).2 H →
      ∀ (n1' n2' n3' : Nat), HandsOff e a q (run e (step e h (.solver a n1 n2 n3)).2 H) [.solver a n1' n2' n3'] →
      ∀ m' s', (step e (run e (step e h (.solver a n1 n2 n3)).2 H) (.solver a n1' n2' n3')).1 = .solver (.ok m') →
        m'.outer = some s' → s' = s := by
  obtain ⟨sp1, G, sp3⟩ := setSolver_spec e h a n1 n2 n3 b ha so f1 f2 f3 d12 d13 d23
  have hm : (setSolver e n1 n2 n3 2 h a).1 = .ok m := Got.solver.inj hm
  obtain ⟨b1, hb1, hck⟩ := sp3 m hm (by rw [hs]; rfl)
  rw [sp1] at hm
  have hw := answer_outer hm hs
  have hc : b.check "outer_solver_db" = false := by
    by_contra hn
    obtain ⟨t, ht⟩ := (check_iff b _).1 (by simpa using hn)
    rw [hno t] at ht; cases ht
  change ∃ q, h q = none ∧ ∀ H, HandsOff e a q (setSolver e n1 n2 n3 2 h a).2 H → _
  obtain ⟨b', hb', _, x2⟩ := G.input b ha
  obtain rfl := Option.some.inj (hb1.symm.trans hb')
  rcases x2 ("outer_solver_db", "outer") (by simp [solverKeys]) with y | ⟨_, q, st, hq, hst, hmd, hdb, _⟩
  · rw [check_congr y, hc] at hck; cases hck
  · have hse : s = ⟨.gmres 30, st.1, st.1, st.2.1, false, st.2.2⟩ := by
      unfold wanted at hw
      rw [hst, hc] at hw
      exact (Except.ok.inj hw).symm
    have haq : a ≠ q := by rintro rfl; rw [ha] at hq; cases hq
    have I0 : Holds a q (madeDb st) (setSolver e n1 n2 n3 2 h a).2 := ⟨b1, madeDb st, hb1, hdb, hmd, fun _ _ _ => rfl⟩
    refine ⟨q, hq, fun H hH n1' n2' n3' hx m' s' hm' hs' => ?_⟩
    obtain ⟨bb, d, hbb, hbd, hqd, ag⟩ := I0.run haq H _ hH
    obtain ⟨⟨bb', hbb', so'⟩, g1, g2, g3, e12, e13, e23⟩ := hx.1
    obtain rfl := Option.some.inj (hbb.symm.trans hbb')
    change (step e (run e (setSolver e n1 n2 n3 2 h a).2 H) (.solver a n1' n2' n3')).1 = _ at hm'
    rw [C127_made e _ a n1' n2' n3' bb hbb so' g1 g2 g3 e12 e13 e23] at hm'
    have hw' := answer_outer (Got.solver.inj hm') hs'
    unfold wanted at hw'
    cases hst' : settings bb "outer" with
    | none => rw [hst'] at hw'; cases hw'
    | some st' =>
      rw [hst'] at hw'
      have hckb : bb.check "outer_solver_db" = true :=
        (check_iff _ _).2 ⟨.db, by rw [show bb.get .db "outer_solver_db" = some q from hbd]; rfl⟩
      rw [hckb] at hw'
      simp only [if_true] at hw'
      rw [hbd] at hw'
      dsimp only at hw'
      have := create_congr (h' := fun _ => some (madeDb st)) (p' := 0) hqd rfl ag
      rw [this, create_made _ _ st rfl] at hw'
      rw [hse]
      exact (Except.ok.inj hw').symm

/-! ### What fails -/

/-- The full statement: what is made — solver, eigenvalue solver or reduced-order solver — depends on the program's own entries
    only. -/
def C127Claim (K : Type) [Field K] : Prop :=
  ∀ (e : Env) (H : List (Act K)), Valid e nothing nothing H → ∀ x,
    Ok (run e nothing H) (run e nothing (H.filter Act.client)) x →
    (step e (run e nothing H) x).1 = (step e (run e nothing (H.filter Act.client)) x).1

/-- The tolerance of the solver over the groups. -/
def Got.tol : Got ℚ → Option ℚ
  | .solver (.ok m) => m.outer.map (·.rtol)
  | _ => none

/-- The eigenvalue solver. -/
def Got.kind : Got ℚ → Option EigKind
  | .eigen (.ok s) => some s.kind
  | _ => none

/-- Every group is left to the Krylov solver. -/
def all1 : Env := ⟨1, fun _ _ => some true⟩

/-- A diffusion problem solved with tolerance 1/100, then the tolerance tightened. -/
def tighten : List (Act ℚ) :=
  [.new 0, .put 0 ⟨.str, "equation", "diffusion"⟩, .put 0 ⟨.dbl, "outer_tolerance", (1 / 100 : ℚ)⟩, .solver 0 10 11 12,
   .put 0 ⟨.dbl, "outer_tolerance", (1 / 10 ^ 6 : ℚ)⟩]

theorem tighten_valid : Valid all1 nothing nothing tighten := by
  refine ⟨rfl, ⟨⟨_, rfl⟩, by decide, fun k v h => by cases h⟩, ⟨⟨_, rfl⟩, by decide, fun k v h => by cases h⟩,
    ⟨⟨_, rfl⟩, rfl, rfl, rfl, by decide, by decide, by decide⟩, ⟨⟨_, rfl⟩, by decide, fun k v h => by cases h⟩, trivial⟩

/-- C127: the tightened tolerance is not used. -/
theorem C127_tolerance_fails :
    (step all1 (run all1 nothing tighten) (.solver 0 20 21 22)).1.tol = some (1 / 100) ∧
    (step all1 (run all1 nothing (tighten.filter Act.client)) (.solver 0 20 21 22)).1.tol = some (1 / 10 ^ 6) := by
  constructor <;> decide +kernel

/-- An eigenvalue problem by `EigenGD`, then one by another method with the same database. -/
def gdFirst : List (Act ℚ) :=
  [.new 0, .new 1, .put 1 ⟨.str, "eigen_solver_type", "power"⟩, .put 0 ⟨.db, "eigen_solver_db", (1 : Nat)⟩, .eigen .gd 0]

/-- C127: making `EigenGD` changes the eigenvalue solver that is made next. -/
theorem C127_gd_fails :
    (step all1 (run all1 nothing gdFirst) (.eigen .arnoldi 0)).1.kind = some (.davidson 20) ∧
    (step all1 (run all1 nothing (gdFirst.filter Act.client)) (.eigen .arnoldi 0)).1.kind = some .power := by
  constructor <;> decide +kernel

/-- A reduced-order solver, then a solver from the same input. -/
def romFirst : List (Act ℚ) := [.new 0, .rom 0 10 11 12]

/-- C127: making a reduced-order solver changes the kind of solver made next (Krylov instead of Gauss–Seidel over the groups)
    and the eigenvalue solver the input names. -/
theorem C127_rom_fails :
    (step all1 (run all1 nothing romFirst) (.solver 0 20 21 22)).1.tol = some (1 / 10 ^ 5) ∧
    (step all1 (run all1 nothing (romFirst.filter Act.client)) (.solver 0 20 21 22)).1.tol = none ∧
    (run all1 nothing romFirst 0).bind (fun b => readStr b "eigen_solver" "none") = some "GD" := by
  refine ⟨?_, ?_, ?_⟩ <;> decide +kernel

/-- C127: the full statement fails. -/
theorem C127_claim_fails : ¬ C127Claim ℚ := by
  intro h
  have := congrArg Got.tol (h all1 tighten tighten_valid (.solver 0 20 21 22)
    ⟨⟨_, rfl⟩, rfl, rfl, rfl, by decide, by decide, by decide⟩)
  rw [C127_tolerance_fails.1, C127_tolerance_fails.2] at this
  revert this
  decide +kernel

/-! ### Examples -/

/-- What was made. -/
def Got.made : Got ℚ → Option (Made ℚ)
  | .solver (.ok m) => some m
  | _ => none

/-- A transport problem with the transport-corrected preconditioner, solved, then solved adjointly with another database. -/
def twice : List (Act ℚ) :=
  [.new 0, .put 0 ⟨.str, "outer_solver", "GMRES"⟩, .put 0 ⟨.str, "inner_solver", "GMRES"⟩,
   .put 0 ⟨.str, "outer_pc_type", "mgtcdsa"⟩, .put 0 ⟨.dbl, "outer_tolerance", (1 / 100 : ℚ)⟩,
   .put 0 ⟨.dbl, "inner_tolerance", (1 / 1000 : ℚ)⟩, .solver 0 10 11 12, .put 0 ⟨.int, "adjoint", (1 : Int)⟩]

theorem twice_valid : Valid all1 nothing nothing twice := by
  refine ⟨rfl, ⟨⟨_, rfl⟩, by decide, fun k v h => by cases h⟩, ⟨⟨_, rfl⟩, by decide, fun k v h => by cases h⟩,
    ⟨⟨_, rfl⟩, by decide, fun k v h => by cases h⟩, ⟨⟨_, rfl⟩, by decide, fun k v h => by cases h⟩,
    ⟨⟨_, rfl⟩, by decide, fun k v h => by cases h⟩,
    ⟨⟨_, rfl⟩, rfl, rfl, rfl, by decide, by decide, by decide⟩, ⟨⟨_, rfl⟩, by decide, fun k v h => by cases h⟩, trivial⟩

/-- What comes after the first solver is no setting. -/
theorem twice_settled : Settled false twice := by
  refine ⟨?_, ?_, ?_, ?_, ?_, ?_, ?_, ?_, ?_, ?_, ?_, ?_, ?_, ?_, ?_, ?_, trivial⟩ <;> intro a
  all_goals first
    | (intro n1 n2 n3 h; cases h; done)
    | (intro o h hm; cases hm; done)
    | (intro o h hm; cases h; done)
    | (intro o h _; cases h; simp [aSetting, settingKey])

/-- The hypotheses of `C127_history_partial` are met, and the solver made last is the one without the history. -/
example : (step all1 (run all1 nothing twice) (.solver 0 20 21 22)).1.made =
    some ⟨some ⟨.gmres 30, 1 / 1000, 1 / 1000, 100, false, 2⟩, some ⟨.gmres 30, 1 / 100, 1 / 100, 100, false, 2⟩,
      some ⟨.gmres 30, 1 / 100, 1 / 100, 100, false, 2⟩⟩ := by decide +kernel

example : (step all1 (run all1 nothing twice) (.solver 0 20 21 22)).1 =
    (step all1 (run all1 nothing (twice.filter Act.client)) (.solver 0 20 21 22)).1 :=
  C127_history_partial all1 twice twice_valid twice_settled 0 20 21 22
    ⟨⟨_, rfl⟩, rfl, rfl, rfl, by decide, by decide, by decide⟩

example : (step all1 (run all1 nothing twice) (.eigen .arnoldi 0)).1 =
    (step all1 (run all1 nothing (twice.filter Act.client)) (.eigen .arnoldi 0)).1 :=
  C127_eigen_history_partial all1 twice twice_valid twice_settled
    (fun a h => by simp [twice] at h) .arnoldi 0 ⟨_, rfl⟩

/-- Databases in the input: 0 is the input, 1 a solver database with its own tolerance. -/
def described : List (Act ℚ) :=
  [.new 0, .new 1, .put 1 ⟨.str, "linear_solver_type", "richardson"⟩, .put 1 ⟨.dbl, "linear_solver_rtol", (1 / 7 : ℚ)⟩,
   .put 0 ⟨.db, "outer_solver_db", (1 : Nat)⟩, .put 0 ⟨.str, "equation", "diffusion"⟩, .solver 0 10 11 12,
   .put 1 ⟨.dbl, "linear_solver_rtol", (1 / 9 : ℚ)⟩]

/-- Entries of the client's own solver database are followed at any time. -/
example : (step all1 (run all1 nothing described) (.solver 0 20 21 22)).1.tol = some (1 / 9) := by decide +kernel

/-- The database made is 11 and stays: the hypotheses of `C127_frozen` are met by the history `tighten` continues with. -/
example : HandsOff (K := ℚ) all1 0 11 (run all1 nothing (tighten.take 4))
    [.put 0 ⟨.dbl, "outer_tolerance", (1 / 10 ^ 6 : ℚ)⟩, .new 5] := by
  refine ⟨⟨by decide, by decide⟩, rfl, trivial⟩

/-- Making a solver left the entries of the program alone and added a database. -/
example : (run all1 nothing (tighten.take 4) 0).bind (fun b => readDbl b "outer_tolerance" 0) = some (1 / 100) ∧
    (run all1 nothing (tighten.take 4) 11).bind (fun b => readDbl b "linear_solver_rtol" 0) = some (1 / 100) ∧
    ((run all1 nothing (tighten.take 4) 12).isNone = true) := by
  refine ⟨?_, ?_, ?_⟩ <;> decide +kernel

end Detran.SolverDb
