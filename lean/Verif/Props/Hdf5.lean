import Verif.Model.Hdf5
import Verif.Lemmas.Util
import Verif.Props.Mesh
import Verif.Props.Util
import Verif.Props.Parser
import Mathlib.Data.List.TakeWhile

/-!
# C114: what is written to a file is what is read from it
-/

namespace Detran.Hdf5

open Detran.Util Detran.Mesh Detran.Material Detran.Parser

variable {K : Type}

/-! ## Specification -/

/-- Text the C library can hold. -/
def NoNull (s : String) : Prop := '\x00' ∉ s.toList

instance (s : String) : Decidable (NoNull s) := inferInstanceAs (Decidable (_ ∉ _))

/-- A name of a link. -/
def IsName (s : String) : Prop := NoNull s ∧ '/' ∉ s.toList ∧ s ≠ "" ∧ s ≠ "."

/-- A map: no key twice, keys are text. -/
def GoodMap {V : Type} (m : SMap V) : Prop := (m.map Prod.fst).Nodup ∧ ∀ e ∈ m, NoNull e.1

mutual
/-- Databases with proper text and names of nested databases that are names of links. -/
def DB.Good : DB K → Prop
  | .mk i d s vi vd dbs =>
    GoodMap i ∧ GoodMap d ∧ (GoodMap s ∧ ∀ e ∈ s, NoNull e.2) ∧ GoodMap vi ∧ GoodMap vd ∧ dbs.Good
def DBs.Good : DBs K → Prop
  | .nil => True
  | .cons k d r => IsName k ∧ r.find k = none ∧ d.Good ∧ r.Good
end

/-! ## Names -/

theorem cstr_eq {s : String} (h : NoNull s) : cstr s = s := by
  rw [cstr, List.takeWhile_eq_self_iff.2, String.ofList_toList]
  intro c hc
  simp only [ne_eq, decide_not, Bool.not_eq_eq_eq_not, Bool.not_true, decide_eq_false_iff_not]
  rintro rfl
  exact h hc

theorem linkName_eq {s : String} (h : IsName s) : linkName s = some s := by
  obtain ⟨h0, h1, h2, h3⟩ := h
  have e : s.toList.splitOn '/' = [s.toList] := by
    rw [List.splitOn]
    apply List.splitOnP_eq_singleton
    intro x hx
    simp only [beq_eq_false_iff_ne, ne_eq]
    rintro rfl
    exact h1 hx
  have n1 : s.toList ≠ [] := by
    intro h
    apply h2
    rw [← String.ofList_toList (s := s), h]
  have n2 : s.toList ≠ ['.'] := by
    intro h
    apply h3
    rw [← String.ofList_toList (s := s), h]
  have n3 : s.toList.head? ≠ some '/' := by
    intro h
    exact h1 (List.mem_of_mem_head? h)
  rw [linkName, cstr_eq h0, e]
  simp [n1, n2, n3]

theorem matName_isName (m : Nat) : IsName (matName m) := by
  have hd : ∀ c ∈ (toString m).toList, c.isDigit := by
    intro c hc
    rw [show toString m = String.ofList (Nat.toDigits 10 m) from rfl, String.toList_ofList] at hc
    exact Nat.isDigit_of_mem_toDigits (by decide) (by decide) hc
  have hm : (matName m).toList = "material".toList ++ (toString m).toList := by
    rw [matName, String.toList_append]
  refine ⟨?_, ?_, ?_, ?_⟩
  · rw [NoNull, hm, List.mem_append]
    rintro (h | h)
    · revert h; decide
    · have := hd _ h; revert this; decide
  · rw [hm, List.mem_append]
    rintro (h | h)
    · revert h; decide
    · have := hd _ h; revert this; decide
  · intro h
    have := congrArg String.toList h
    rw [hm] at this
    revert this
    simp
  · intro h
    have := congrArg String.toList h
    rw [hm] at this
    have := congrArg List.head? this
    revert this
    simp

theorem matName_inj {a b : Nat} (h : matName a = matName b) : a = b := by
  have h1 := congrArg String.toList h
  rw [matName, matName, String.toList_append, String.toList_append] at h1
  have h2 := List.append_cancel_left h1
  have e : ∀ n : Nat, (toString n).toList = Nat.toDigits 10 n := by
    intro n
    rw [show toString n = String.ofList (Nat.toDigits 10 n) from rfl, String.toList_ofList]
  rw [e, e] at h2
  have h3 := congrArg (fun l => Nat.ofDigitChars 10 l 0) h2
  simpa only [Nat.ofDigitChars_toDigits (b := 10) (by decide) (by decide)] using h3

/-! ## Links -/

theorem Kids.find_snoc (ks : Kids K) (a b : String) (n : Node K) :
    (ks.snoc a n).find b = match ks.find b with
      | some v => some v
      | none => if a = b then some n else none := by
  match ks with
  | .nil => simp [Kids.snoc, Kids.find]
  | .cons k v r =>
    rw [Kids.snoc, Kids.find, Kids.find]
    split
    · rfl
    · exact r.find_snoc a b n

theorem Kids.find_add (ks : Kids K) (a b : String) (n : Node K) (ha : IsName a) :
    (ks.add a n).find b = match ks.find b with
      | some v => some v
      | none => if a = b then some n else none := by
  rw [Kids.add, linkName_eq ha]
  simp only
  split
  · rename_i h
    obtain ⟨v, hv⟩ := Option.isSome_iff_exists.1 h
    cases e : ks.find b with
    | some w => rfl
    | none =>
      have : a ≠ b := by rintro rfl; rw [hv] at e; cases e
      simp [this]
  · exact ks.find_snoc a b n

/-! ## Tables -/

theorem SMap.set_new {V : Type} (m : SMap V) (k : String) (v : V) (h : k ∉ m.map Prod.fst) : m.set k v = m ++ [(k, v)] := by
  induction m with
  | nil => rfl
  | cons e r ih =>
    obtain ⟨k', v'⟩ := e
    simp only [List.map_cons, List.mem_cons, not_or] at h
    rw [SMap.set, if_neg (fun e => h.1 e.symm), ih h.2]
    rfl

theorem putAll_aux {V : Type} (l : List (String × V)) :
    ∀ acc : SMap V, ((acc ++ l).map Prod.fst).Nodup → l.foldl (fun m e => SMap.set m e.1 e.2) acc = acc ++ l := by
  induction l with
  | nil => intro acc _; simp
  | cons e r ih =>
    intro acc h
    have hk : e.1 ∉ acc.map Prod.fst := by
      intro hm
      rw [List.map_append, List.map_cons, List.nodup_append] at h
      exact h.2.2 _ hm _ (List.mem_cons_self ..) rfl
    rw [List.foldl_cons, SMap.set_new _ _ _ hk, ih _ (by simpa using h)]
    simp

theorem putAll_eq {V : Type} (l : List (String × V)) (h : (l.map Prod.fst).Nodup) : putAll l = l :=
  putAll_aux l [] (by simpa using h)

theorem table_eq {V : Type} {m : SMap V} (h : GoodMap m) : table m = m := by
  rw [table]
  conv_rhs => rw [← List.map_id m]
  refine List.map_congr_left fun e he => ?_
  rw [cstr_eq (h.2 e he)]
  rfl

theorem stable_eq {m : SMap String} (h : GoodMap m) (h' : ∀ e ∈ m, NoNull e.2) : stable m = m := by
  rw [stable]
  conv_rhs => rw [← List.map_id m]
  refine List.map_congr_left fun e he => ?_
  rw [cstr_eq (h.2 e he), cstr_eq (h' e he)]
  rfl

/-! ## Databases -/

instance (s : String) : Decidable (IsName s) := inferInstanceAs (Decidable (_ ∧ _ ∧ _ ∧ _))

theorem encode_db (i : SMap Int) (d : SMap K) (s : SMap String) (vi : SMap (List Int)) (vd : SMap (List K)) (dbs : DBs K) :
    (DB.mk i d s vi vd dbs).encode = .group [] (.cons "int_data" (.data (.ints (table i)))
      (.cons "dbl_data" (.data (.dbls (table d))) (.cons "str_data" (.data (.strs (stable s)))
      (.cons "vec_int_data" (.data (.vints (table vi))) (.cons "vec_dbl_data" (.data (.vdbls (table vd)))
      (.cons "db_data" (.group [] (dbs.encode .nil)) .nil)))))) := by
  have h1 : linkName "int_data" = some "int_data" := linkName_eq (by decide +kernel)
  have h2 : linkName "dbl_data" = some "dbl_data" := linkName_eq (by decide +kernel)
  have h3 : linkName "str_data" = some "str_data" := linkName_eq (by decide +kernel)
  have h4 : linkName "vec_int_data" = some "vec_int_data" := linkName_eq (by decide +kernel)
  have h5 : linkName "vec_dbl_data" = some "vec_dbl_data" := linkName_eq (by decide +kernel)
  have h6 : linkName "db_data" = some "db_data" := linkName_eq (by decide +kernel)
  simp [DB.encode, Kids.add, h1, h2, h3, h4, h5, h6, Kids.find, Kids.snoc]

/-- All entries put into a map. -/
def DBs.push : DBs K → DBs K → DBs K
  | .nil, a => a
  | .cons k d r, a => r.push (a.set k d)

theorem DBs.set_cons_ne (k k' : String) (d d' : DB K) (r : DBs K) (h : k' ≠ k) :
    (DBs.cons k' d' r).set k d = .cons k' d' (r.set k d) := by
  rw [DBs.set, if_neg h]

/-- Concatenation. -/
def DBs.app : DBs K → DBs K → DBs K
  | .nil, b => b
  | .cons k d r, b => .cons k d (r.app b)

theorem DBs.set_new (a : DBs K) (k : String) (d : DB K) (h : a.find k = none) : a.set k d = a.app (.cons k d .nil) := by
  match a with
  | .nil => rfl
  | .cons k' d' r =>
    rw [DBs.find] at h
    split at h
    · cases h
    · rename_i hne
      rw [DBs.set, if_neg hne, r.set_new k d h, DBs.app]

theorem DBs.app_app (a b c : DBs K) : (a.app b).app c = a.app (b.app c) := by
  match a with
  | .nil => rfl
  | .cons k d r => rw [DBs.app, DBs.app, DBs.app, r.app_app b c]

theorem DBs.find_app (a b : DBs K) (k : String) : (a.app b).find k = (a.find k).or (b.find k) := by
  match a with
  | .nil => simp [DBs.app, DBs.find]
  | .cons k' d' r =>
    rw [DBs.app, DBs.find, DBs.find]
    split
    · rfl
    · exact r.find_app b k

theorem DBs.app_nil (a : DBs K) : a.app .nil = a := by
  match a with
  | .nil => rfl
  | .cons k d r => rw [DBs.app, r.app_nil]

theorem DBs.push_eq (b a : DBs K) (hg : b.Good) (h : ∀ k, (b.find k).isSome → a.find k = none) : b.push a = a.app b := by
  match b with
  | .nil => rw [DBs.push, a.app_nil]
  | .cons k d r =>
    rw [DBs.Good] at hg
    have hk : a.find k = none := h k (by simp [DBs.find])
    rw [DBs.push, DBs.set_new _ _ _ hk, r.push_eq _ hg.2.2.2, DBs.app_app]
    · rfl
    · intro k' hk'
      rw [DBs.find_app, h k' (by
        rw [DBs.find]
        split
        · rfl
        · exact hk')]
      have : k ≠ k' := by
        rintro rfl
        rw [hg.2.1] at hk'
        cases hk'
      simp [DBs.find, this]

theorem Kids.collect_snoc (ks : Kids K) (k : String) (n : Node K) (acc : DBs K) :
    (ks.snoc k n).collect acc = (ks.collect acc).bind fun a => (Kids.cons k n .nil).collect a := by
  match ks with
  | .nil => rfl
  | .cons k' n' r =>
    rw [Kids.snoc]
    match n' with
    | .data _ => simp only [Kids.collect]; rfl
    | .group at' ks' =>
      simp only [Kids.collect]
      cases (Node.group at' ks').decode with
      | error e => rfl
      | ok d => exact r.collect_snoc k n _

mutual
/-- Reading what was written. -/
theorem DB.roundtrip : (db : DB K) → db.Good → db.encode.decode = .ok db
  | .mk i d s vi vd dbs, h => by
    rw [DB.Good] at h
    obtain ⟨hi, hd, hs, hvi, hvd, hn⟩ := h
    have hdbs := dbs.roundtrip hn .nil .nil (by intro k _; rfl)
    rw [encode_db, table_eq hi, table_eq hd, stable_eq hs.1 hs.2, table_eq hvi, table_eq hvd]
    have hc : (dbs.encode .nil).collect .nil = .ok dbs := by
      rw [hdbs]
      show Except.ok (dbs.push .nil) = _
      rw [dbs.push_eq .nil hn (by intro k _; rfl)]
      rfl
    simp [Node.decode, readTable, Kids.find, Table.int?, Table.dbl?, Table.str?, Table.vint?, Table.vdbl?, orUB, Except.map,
      putAll_eq _ hi.1, putAll_eq _ hd.1, putAll_eq _ hs.1.1, putAll_eq _ hvi.1, putAll_eq _ hvd.1, Kids.nested, Node.members,
      hc, bind, Except.bind, pure, Except.pure]
theorem DBs.roundtrip : (dbs : DBs K) → dbs.Good → ∀ (ks : Kids K) (acc : DBs K),
    (∀ k, (dbs.find k).isSome → ks.find k = none) →
    (dbs.encode ks).collect acc = (ks.collect acc).bind fun a => .ok (dbs.push a)
  | .nil, _, ks, acc, _ => by
    rw [DBs.encode]
    cases ks.collect acc <;> rfl
  | .cons k d r, h, ks, acc, hf => by
    rw [DBs.Good] at h
    obtain ⟨hk, hr, hd, hg⟩ := h
    have hdec := d.roundtrip hd
    have e : ks.add k d.encode = ks.snoc k d.encode := by
      rw [Kids.add, linkName_eq hk]
      simp only
      rw [hf k (by simp [DBs.find])]
      rfl
    rw [DBs.encode, r.roundtrip hg, e, Kids.collect_snoc]
    · cases ks.collect acc with
      | error e => rfl
      | ok a =>
        have hgr : ∃ at' ks', d.encode = .group at' ks' := by
          cases d
          rw [encode_db]
          exact ⟨_, _, rfl⟩
        obtain ⟨at', ks', hgr⟩ := hgr
        show ((Kids.cons k d.encode .nil).collect a).bind _ = Except.ok _
        rw [hgr] at hdec ⊢
        simp [Kids.collect, hdec, bind, Except.bind, DBs.push]
    · intro k' hk'
      rw [Kids.find_add _ _ _ _ hk, hf k' (by
        rw [DBs.find]
        split
        · rfl
        · exact hk')]
      have : k ≠ k' := by
        rintro rfl
        rw [hr] at hk'
        cases hk'
      simp [this]
end

/-! ## Materials -/

section
variable [Field K] [LinearOrder K]

theorem flat_length (n G : Nat) (f : Nat → Nat → K) :
    ((List.range n).flatMap fun g => (List.range G).map fun gp => f g gp).length = n * G := by
  induction n with
  | zero => simp
  | succ n ih => rw [List.range_succ, List.flatMap_append, List.length_append, ih]; simp [Nat.succ_mul]

theorem flat_get (n G : Nat) (f : Nat → Nat → K) (g gp : Nat) (hg : g < n) (hgp : gp < G) :
    ((List.range n).flatMap fun g => (List.range G).map fun gp => f g gp).getD (gp + g * G) 0 = f g gp := by
  induction n with
  | zero => omega
  | succ n ih =>
    rw [List.range_succ, List.flatMap_append, List.getD_eq_getElem?_getD]
    by_cases h : g < n
    · rw [List.getElem?_append_left, ← List.getD_eq_getElem?_getD, ih h]
      rw [flat_length]
      calc gp + g * G < G + g * G := by omega
        _ = (g + 1) * G := by rw [Nat.succ_mul]; omega
        _ ≤ n * G := Nat.mul_le_mul_right _ h
    · have e : g = n := by omega
      subst e
      rw [List.getElem?_append_right (by rw [flat_length]; omega), flat_length]
      simp [hgp]

theorem groupVec_length (x : Mat K) (a : Nat → Nat → K) (m : Nat) : (groupVec x a m).length = x.G := by
  simp [groupVec]

theorem groupVec_get (x : Mat K) (a : Nat → Nat → K) (m g : Nat) (h : g < x.G) : (groupVec x a m).getD g 0 = a g m := by
  simp [groupVec, h]

theorem encode_mat1 (x : Mat K) (m : Nat) :
    encodeMat1 x m = .group [] (.cons "sigma_t" (.data (.vec (groupVec x x.sigT m)))
      (.cons "sigma_a" (.data (.vec (groupVec x x.sigA m))) (.cons "sigma_f" (.data (.vec (groupVec x x.sigF m)))
      (.cons "nu" (.data (.vec (groupVec x x.nu m))) (.cons "chi" (.data (.vec (groupVec x x.chi m)))
      (.cons "diff_coef" (.data (.vec (groupVec x x.sigA m)))
      (.cons "sigma_s" (.data (.vec ((List.range x.G).flatMap fun g => (List.range x.G).map fun gp => x.sigS g gp m)))
        .nil))))))) := by
  have h1 : linkName "sigma_t" = some "sigma_t" := linkName_eq (by decide +kernel)
  have h2 : linkName "sigma_a" = some "sigma_a" := linkName_eq (by decide +kernel)
  have h3 : linkName "sigma_f" = some "sigma_f" := linkName_eq (by decide +kernel)
  have h4 : linkName "nu" = some "nu" := linkName_eq (by decide +kernel)
  have h5 : linkName "chi" = some "chi" := linkName_eq (by decide +kernel)
  have h6 : linkName "diff_coef" = some "diff_coef" := linkName_eq (by decide +kernel)
  have h7 : linkName "sigma_s" = some "sigma_s" := linkName_eq (by decide +kernel)
  simp [encodeMat1, Kids.add, h1, h2, h3, h4, h5, h6, h7, Kids.find, Kids.snoc]

/-- The links of the material group. -/
def matKids (x : Mat K) (n : Nat) : Kids K :=
  (List.range n).foldl (fun ks m => ks.add (matName m) (encodeMat1 x m)) .nil

theorem matKids_find (x : Mat K) (n m : Nat) :
    (matKids x n).find (matName m) = if m < n then some (encodeMat1 x m) else none := by
  induction n with
  | zero => rfl
  | succ n ih =>
    have e : matKids x (n + 1) = (matKids x n).add (matName n) (encodeMat1 x n) := by
      rw [matKids, List.range_succ, List.foldl_append, List.foldl_cons, List.foldl_nil, matKids]
    rw [e, Kids.find_add _ _ _ _ (matName_isName n), ih]
    by_cases h : m < n
    · rw [if_pos h, if_pos (by omega : m < n + 1)]
    · rw [if_neg h]
      by_cases h' : n = m
      · subst h'
        rw [if_pos (Nat.lt_succ_self n)]
        exact if_pos rfl
      · rw [if_neg (by omega : ¬ m < n + 1)]
        exact if_neg fun e => h' (matName_inj e)

/-- What has been read after `n` materials. -/
def readMat (x : Mat K) (n : Nat) : Mat K :=
  { (Mat.new x.M x.G : Mat K) with
    sigT := fun g m => if m < n ∧ g < x.G then x.sigT g m else 0
    sigA := fun g m => if m < n ∧ g < x.G then x.sigA g m else 0
    sigF := fun g m => if m < n ∧ g < x.G then x.sigF g m else 0
    nu := fun g m => if m < n ∧ g < x.G then x.nu g m else 1
    chi := fun g m => if m < n ∧ g < x.G then x.chi g m else 0
    diff := fun g m => if m < n ∧ g < x.G then x.sigA g m else 0
    sigS := fun g gp m => if m < n ∧ g < x.G ∧ gp < x.G then x.sigS g gp m else 0 }

theorem setIf_eq (x : Mat K) (a : Nat → Nat → K) (d : K) (n : Nat) :
    setIf x.G (fun g m => if m < n ∧ g < x.G then a g m else d) n (some (groupVec x a n)) =
      fun g m => if m < n + 1 ∧ g < x.G then a g m else d := by
  funext g m
  simp only [setIf, setGroups]
  by_cases hg : g < x.G
  · by_cases hm : m = n
    · subst hm
      rw [if_pos ⟨rfl, hg⟩, if_pos ⟨by omega, hg⟩, groupVec_get _ _ _ _ hg]
    · rw [if_neg (fun h => hm h.1)]
      by_cases h : m < n
      · rw [if_pos ⟨h, hg⟩, if_pos ⟨by omega, hg⟩]
      · rw [if_neg (fun e => h e.1), if_neg (fun e => h (by omega))]
  · rw [if_neg (fun h => hg h.2), if_neg (fun h => hg h.2), if_neg (fun h => hg h.2)]

theorem decode_mat1 (x : Mat K) (n N : Nat) (h : n < N) :
    decodeMat1 x.G (matKids x N) (readMat x n) n = .ok (readMat x (n + 1)) := by
  have hs : (fun g gp m' => if m' = n ∧ g < x.G ∧ gp < x.G then
        ((List.range x.G).flatMap fun g => (List.range x.G).map fun gp => x.sigS g gp n).getD (gp + g * x.G) 0
      else (readMat x n).sigS g gp m') = (readMat x (n + 1)).sigS := by
    funext g gp m
    simp only [readMat]
    by_cases hg : g < x.G ∧ gp < x.G
    · by_cases hm : m = n
      · subst hm
        rw [if_pos ⟨rfl, hg⟩, if_pos ⟨by omega, hg⟩, flat_get _ _ _ _ _ hg.1 hg.2]
      · rw [if_neg (fun h => hm h.1)]
        by_cases h : m < n
        · rw [if_pos ⟨h, hg⟩, if_pos ⟨by omega, hg⟩]
        · rw [if_neg (fun e => h e.1), if_neg (fun e => h (by omega))]
    · rw [if_neg (fun h => hg h.2), if_neg (fun h => hg h.2), if_neg (fun h => hg h.2)]
  rw [decodeMat1, matKids_find, if_pos h, encode_mat1]
  simp only [readVec, readScatter, Kids.find, String.reduceEq, if_true, if_false, groupVec_length, flat_length, insist,
    Option.isSome_some, bind, Except.bind, pure, Except.pure]
  rw [hs]
  simp only [readMat, setIf_eq]

theorem decode_mat_fold (x : Mat K) (n : Nat) (h : n ≤ x.M) :
    (List.range n).foldlM (decodeMat1 x.G (matKids x x.M)) (Mat.new x.M x.G) = .ok (readMat x n) := by
  induction n with
  | zero =>
    simp [readMat, pure, Except.pure]
    rfl
  | succ n ih =>
    rw [List.range_succ, List.foldlM_append, ih (by omega)]
    simp only [bind, Except.bind, List.foldlM_cons, List.foldlM_nil]
    rw [decode_mat1 x n x.M (by omega)]
    rfl

theorem decode_mat (x : Mat K) : decodeMat (encodeMat x) = .ok (readMat x x.M).finalize := by
  have h := decode_mat_fold x x.M le_rfl
  have h1 : readAttr [("number_groups", (x.G : Int)), ("number_materials", (x.M : Int))] "number_groups" = .ok (x.G : Int) :=
    rfl
  have h2 : readAttr [("number_groups", (x.G : Int)), ("number_materials", (x.M : Int))] "number_materials" =
    .ok (x.M : Int) := rfl
  rw [encodeMat, decodeMat, h1, h2]
  simp only [bind, Except.bind]
  rw [Int.toNat_natCast, Int.toNat_natCast]
  simp only [matKids] at h
  rw [h]
  rfl

/-! ## Meshes -/

/-- A mesh that a constructor can have made: at least one cell in each direction, unit widths in the directions it does not
    have, and a material map. -/
def GoodMesh (x : MeshData K) : Prop :=
  (x.dim = 1 ∨ x.dim = 2 ∨ x.dim = 3) ∧ x.dx ≠ [] ∧ x.dy ≠ [] ∧ x.dz ≠ [] ∧ (x.dim < 2 → x.dy = [1]) ∧
    (x.dim < 3 → x.dz = [1]) ∧ GoodMap x.maps ∧ (x.maps.find "MATERIAL").isSome

/-- The same mesh, as far as it can be asked. -/
def SameMesh (x y : MeshData K) : Prop :=
  y.dim = x.dim ∧ y.dx = x.dx ∧ y.dy = x.dy ∧ y.dz = x.dz ∧ ∀ key, y.maps.find key = x.maps.find key

theorem edges_snoc (l : List K) (w : K) : edges (l ++ [w]) = edges l ++ [(edges l).getLastD 0 + w] := by
  rw [edges, List.foldl_append]
  rfl

theorem edges_length (l : List K) : (edges l).length = l.length + 1 := by
  induction l using List.reverseRecOn with
  | nil => rfl
  | append_singleton l w ih => rw [edges_snoc]; simp [ih]

theorem edges_diff (l : List K) (i : Nat) (h : i < l.length) :
    (edges l).getD (i + 1) 0 - (edges l).getD i 0 = l.getD i 0 := by
  induction l using List.reverseRecOn with
  | nil => simp at h
  | append_singleton l w ih =>
    have hl := edges_length l
    rw [edges_snoc]
    simp only [List.getD_eq_getElem?_getD] at ih ⊢
    by_cases hi : i < l.length
    · rw [List.getElem?_append_left (by omega), List.getElem?_append_left (by omega), List.getElem?_append_left hi, ih hi]
    · have hi' : i = l.length := by simp at h; omega
      subst hi'
      rw [List.getElem?_append_right (by omega), List.getElem?_append_left (by omega), hl]
      have hlast : (edges l).getLastD 0 = ((edges l)[l.length]?).getD 0 := by
        rw [List.getLastD_eq_getLast?, List.getLast?_eq_getElem?, hl]
        rfl
      rw [hlast]
      simp

theorem widths_edges (l : List K) : widths (edges l) (List.replicate ((edges l).length - 1) 1) = some l := by
  have hl := edges_length l
  rw [hl, Nat.add_sub_cancel]
  obtain ⟨dx, h1, h2, h3⟩ := widths_spec (edges l) (List.replicate l.length 1) (by simp [hl])
  rw [h1]
  congr 1
  simp at h2
  apply List.ext_getElem?
  intro i
  by_cases hi : i < l.length
  · rw [h3 i i]
    · rw [edges_diff l i hi]
      simp [hi]
    · simp [InCoarse]
      omega
  · rw [List.getElem?_eq_none (by omega), List.getElem?_eq_none (by omega)]

theorem find_filter_ne (m : SMap (List Int)) (key k : String) (h : key ≠ k) :
    SMap.find (m.filter fun e => e.1 ≠ key) k = m.find k := by
  induction m with
  | nil => rfl
  | cons e r ih =>
    obtain ⟨k', v⟩ := e
    rw [List.filter_cons]
    by_cases h' : k' = key
    · subst h'
      simp only [ne_eq, not_true_eq_false, decide_false, Bool.false_eq_true, if_false]
      rw [ih, SMap.find, if_neg h]
    · simp only [ne_eq, h', not_false_eq_true, decide_true, if_true]
      rw [SMap.find, SMap.find, ih]

theorem find_addMeshMap (m : SMap (List Int)) (key k : String) (v : List Int) :
    (addMeshMap m key v).find k = if key = k then some v else m.find k := by
  rw [addMeshMap, SMap.find_set]
  split
  · rfl
  · rename_i h
    exact find_filter_ne m key k h

theorem find_none {V : Type} (m : SMap V) (k : String) (h : k ∉ m.map Prod.fst) : m.find k = none := by
  induction m with
  | nil => rfl
  | cons e r ih =>
    obtain ⟨k', v⟩ := e
    simp only [List.map_cons, List.mem_cons, not_or] at h
    rw [SMap.find, if_neg (fun e => h.1 e.symm), ih h.2]

/-- The maps after the loop. -/
theorem maps_fold (l : SMap (List Int)) (hn : (l.map Prod.fst).Nodup) (k : String) :
    ∀ m : SMap (List Int),
      SMap.find (l.foldl (fun m e => if e.1 ≠ "MATERIAL" then addMeshMap m e.1 e.2 else m) m) k =
        if k = "MATERIAL" then m.find k else (l.find k).or (m.find k) := by
  induction l with
  | nil => intro m; simp [SMap.find]
  | cons e r ih =>
    obtain ⟨k', v⟩ := e
    intro m
    rw [List.map_cons, List.nodup_cons] at hn
    rw [List.foldl_cons, ih hn.2]
    by_cases hk : k = "MATERIAL"
    · subst hk
      rw [if_pos rfl, if_pos rfl]
      by_cases h' : k' = "MATERIAL"
      · simp [h']
      · simp [h', find_addMeshMap]
    · rw [if_neg hk, if_neg hk, SMap.find]
      by_cases h' : k' = k
      · subst h'
        simp [hk, find_addMeshMap, find_none r k' hn.1]
      · rw [if_neg h']
        split
        · rw [find_addMeshMap, if_neg h']
        · rfl

theorem encode_mesh (x : MeshData K) : encodeMesh x =
    .group [("dimension", (x.dim : Int)), ("number_cells_x", (x.dx.length : Int)),
      ("number_cells_y", (x.dy.length : Int)), ("number_cells_z", (x.dz.length : Int))]
    (.cons "dx" (.data (.vec x.dx)) (.cons "dy" (.data (.vec x.dy)) (.cons "dz" (.data (.vec x.dz))
      (.cons "mesh_map" (.data (.vints (table x.maps))) .nil)))) := by
  have h1 : linkName "dx" = some "dx" := linkName_eq (by decide +kernel)
  have h2 : linkName "dy" = some "dy" := linkName_eq (by decide +kernel)
  have h3 : linkName "dz" = some "dz" := linkName_eq (by decide +kernel)
  have h4 : linkName "mesh_map" = some "mesh_map" := linkName_eq (by decide +kernel)
  simp [encodeMesh, Kids.add, h1, h2, h3, h4, Kids.find, Kids.snoc]

theorem fine_zero : widths [(0 : K), 0] (List.replicate 1 1) = some [0] := widths_zero

theorem build_mesh (x : MeshData K) (h : GoodMesh x) (mt : List Int) :
    buildMesh (x.dim : Int) (edges x.dx) (edges x.dy) (edges x.dz) mt = .ok ⟨x.dim, x.dx, x.dy, x.dz, mt⟩ := by
  obtain ⟨hd, -, -, -, hy, hz, -, -⟩ := h
  rcases hd with hd | hd | hd
  · rw [buildMesh, hd, if_pos (by decide), mesh1Fine, fineMesh, widths_edges]
    rw [show ([(0 : K), 0].length - 1) = 1 from rfl, fine_zero, hy (by omega), hz (by omega)]
    rfl
  · rw [buildMesh, hd, if_neg (by decide), if_pos (by decide), fineMesh, widths_edges, widths_edges]
    rw [show ([(0 : K), 0].length - 1) = 1 from rfl, fine_zero, hz (by omega)]
    rfl
  · rw [buildMesh, hd, if_neg (by decide), if_neg (by decide), fineMesh, widths_edges, widths_edges, widths_edges]
    rfl

theorem decode_mesh (x : MeshData K) (h : GoodMesh x) : ∃ y, decodeMesh (encodeMesh x) = .ok y ∧ SameMesh x y := by
  have hb := build_mesh x h
  obtain ⟨hd, hx, hy, hz, -, -, hm, hM⟩ := h
  obtain ⟨mt, hmt⟩ := Option.isSome_iff_exists.1 hM
  have hne : x.maps.isEmpty = false := by
    cases e : x.maps with
    | nil => rw [e] at hmt; cases hmt
    | cons => rfl
  have i1 : insist (decide (0 < (x.dx.length : Int) ∧ 0 < (x.dy.length : Int) ∧ 0 < (x.dz.length : Int))) = .ok () := by
    have := List.length_pos_iff.2 hx
    have := List.length_pos_iff.2 hy
    have := List.length_pos_iff.2 hz
    rw [decide_eq_true (by omega)]
    rfl
  have i2 : insist (decide ((x.dim : Int) = 1 ∨ (x.dim : Int) = 2 ∨ (x.dim : Int) = 3)) = .ok () := by
    rw [decide_eq_true (by omega)]
    rfl
  refine ⟨⟨x.dim, x.dx, x.dy, x.dz,
    x.maps.foldl (fun m e => if e.1 ≠ "MATERIAL" then addMeshMap m e.1 e.2 else m) [("MATERIAL", mt)]⟩,
    ?_, rfl, rfl, rfl, rfl, fun key => ?_⟩
  · rw [encode_mesh, table_eq hm]
    generalize hks : Kids.cons "dx" (Node.data (Table.vec x.dx)) (.cons "dy" (.data (.vec x.dy)) (.cons "dz" (.data (.vec x.dz))
      (.cons "mesh_map" (.data (.vints x.maps)) .nil))) = ks
    have n1 : needVec ks "dx" x.dx.length = .ok x.dx := by
      subst hks
      simp [needVec, readVec, Kids.find, bind, Except.bind, pure, Except.pure]
    have n2 : needVec ks "dy" x.dy.length = .ok x.dy := by
      subst hks
      simp [needVec, readVec, Kids.find, bind, Except.bind, pure, Except.pure]
    have n3 : needVec ks "dz" x.dz.length = .ok x.dz := by
      subst hks
      simp [needVec, readVec, Kids.find, bind, Except.bind, pure, Except.pure]
    have n4 : ks.find "mesh_map" = some (.data (.vints x.maps)) := by
      subst hks
      simp [Kids.find]
    generalize hat : [("dimension", (x.dim : Int)), ("number_cells_x", (x.dx.length : Int)),
      ("number_cells_y", (x.dy.length : Int)), ("number_cells_z", (x.dz.length : Int))] = at'
    have a1 : readAttr at' "dimension" = .ok (x.dim : Int) := by subst hat; rfl
    have a2 : readAttr at' "number_cells_x" = .ok (x.dx.length : Int) := by subst hat; rfl
    have a3 : readAttr at' "number_cells_y" = .ok (x.dy.length : Int) := by subst hat; rfl
    have a4 : readAttr at' "number_cells_z" = .ok (x.dz.length : Int) := by subst hat; rfl
    simp only [decodeMesh, a1, a2, a3, a4, i1, i2, bind, Except.bind, Int.toNat_natCast, n1, n2, n3, n4, hne,
      Bool.false_eq_true, if_false, putAll_eq _ hm.1, hmt, Option.getD_some, hb]
    exact rfl
  · refine (maps_fold _ hm.1 key _).trans ?_
    by_cases hk : key = "MATERIAL"
    · subst hk
      rw [if_pos rfl, hmt]
      rfl
    · rw [if_neg hk, SMap.find, if_neg (Ne.symm hk), SMap.find, Option.or_none]

/-! ## Materials, as asked -/

/-- The same material, as far as it can be asked; `all` includes the diffusion coefficients. -/
def SameMat (all : Bool) (x y : Mat K) : Prop :=
  y.G = x.G ∧ y.M = x.M ∧
  (∀ g < x.G, ∀ m < x.M, y.sigT g m = x.sigT g m ∧ y.sigA g m = x.sigA g m ∧ y.nuSigF g m = x.nuSigF g m ∧
    y.sigF g m = x.sigF g m ∧ y.nu g m = x.nu g m ∧ y.chi g m = x.chi g m ∧ (all = true → y.diff g m = x.diff g m)) ∧
  (∀ g < x.G, ∀ gp < x.G, ∀ m < x.M, y.sigS g gp m = x.sigS g gp m) ∧
  (∀ g < x.G, ∀ tran, y.lower g tran = x.lower g tran ∧ y.upper g tran = x.upper g tran) ∧
  ∀ tran, y.downscatter tran = x.downscatter tran ∧ y.upscatterCutoff tran = x.upscatterCutoff tran

/-- A material with values of any kind that has been finalised once. -/
def GoodMat (x : Mat K) : Prop :=
  ∃ y : Mat K, x = y.finalize ∧ y.cut0 = y.G ∧ y.cut1 = 0 ∧ y.down0 = false ∧ y.down1 = false

theorem scan_congr (G M g : Nat) (hg : g < G) (s s' : Nat → Nat → K) (h : ∀ gp < G, ∀ m < M, s gp m = s' gp m) :
    scanBounds G M g s = scanBounds G M g s' := by
  rw [scanBounds, scanBounds]
  refine List.foldl_ext _ _ _ fun lu m hm => ?_
  have hm' := List.mem_range.1 hm
  refine Prod.ext ?_ ?_
  · refine List.foldl_ext _ _ _ fun lo gp hgp => ?_
    rw [h gp (by have := List.mem_range.1 hgp; omega) m hm']
  · refine List.foldl_ext _ _ _ fun up gp hgp => ?_
    rw [h gp (List.mem_range.1 hgp) m hm']

theorem find_range_congr (G : Nat) (p q : Nat → Bool) (h : ∀ g < G, p g = q g) :
    (List.range G).find? p = (List.range G).find? q ∧ (List.range G).reverse.find? p = (List.range G).reverse.find? q := by
  have aux : ∀ l : List Nat, (∀ g ∈ l, g < G) → l.find? p = l.find? q := by
    intro l
    induction l with
    | nil => intro _; rfl
    | cons a r ih =>
      intro hl
      rw [List.find?_cons, List.find?_cons, h a (hl a (List.mem_cons_self ..)),
        ih fun g hg => hl g (List.mem_cons_of_mem _ hg)]
  exact ⟨aux _ fun g hg => List.mem_range.1 hg, aux _ fun g hg => List.mem_range.1 (List.mem_reverse.1 hg)⟩

/-- Finalising depends on the values within range only. -/
theorem finalize_same (x y : Mat K) (hG : y.G = x.G) (hM : y.M = x.M) (h0 : y.cut0 = x.cut0) (h1 : y.cut1 = x.cut1)
    (h2 : y.down0 = x.down0) (h3 : y.down1 = x.down1)
    (hs : ∀ g < x.G, ∀ gp < x.G, ∀ m < x.M, y.sigS g gp m = x.sigS g gp m) :
    (∀ g < x.G, ∀ tran, y.finalize.lower g tran = x.finalize.lower g tran ∧
      y.finalize.upper g tran = x.finalize.upper g tran) ∧
    ∀ tran, y.finalize.downscatter tran = x.finalize.downscatter tran ∧
      y.finalize.upscatterCutoff tran = x.finalize.upscatterCutoff tran := by
  have r : ∀ g < x.G, scanBounds y.G y.M g (fun gp m => y.sigS g gp m) = scanBounds x.G x.M g fun gp m => x.sigS g gp m := by
    intro g hg
    rw [hG, hM]
    exact scan_congr _ _ _ hg _ _ fun gp hgp m hm => hs g hg gp hgp m hm
  have c : ∀ g < x.G, scanBounds y.G y.M g (fun gp m => y.sigS gp g m) = scanBounds x.G x.M g fun gp m => x.sigS gp g m := by
    intro g hg
    rw [hG, hM]
    exact scan_congr _ _ _ hg _ _ fun gp hgp m hm => hs gp hgp g hg m hm
  have f0 := (find_range_congr x.G
    (fun g => decide ((scanBounds y.G y.M g (fun gp m => y.sigS g gp m)).2 > g))
    (fun g => decide ((scanBounds x.G x.M g (fun gp m => x.sigS g gp m)).2 > g)) fun g hg => by simp only [r g hg]).1
  have f1 := (find_range_congr x.G
    (fun g => decide ((scanBounds y.G y.M g (fun gp m => y.sigS gp g m)).1 < g))
    (fun g => decide ((scanBounds x.G x.M g (fun gp m => x.sigS gp g m)).1 < g)) fun g hg => by simp only [c g hg]).2
  refine ⟨fun g hg tran => ?_, fun tran => ?_⟩
  · cases tran
    · simp [Mat.lower, Mat.upper, Mat.finalize, r g hg]
    · simp [Mat.lower, Mat.upper, Mat.finalize, c g hg]
  · have e0 : y.finalize.cut0 = x.finalize.cut0 := by
      simp only [Mat.finalize]
      rw [hG, h0] at *
      rw [f0]
    have e1 : y.finalize.cut1 = x.finalize.cut1 := by
      simp only [Mat.finalize]
      rw [hG, h1] at *
      rw [f1]
    have d0 : y.finalize.down0 = x.finalize.down0 := by
      show (if y.finalize.cut0 = y.G then true else y.down0) = (if x.finalize.cut0 = x.G then true else x.down0)
      rw [e0, hG, h2]
    have d1 : y.finalize.down1 = x.finalize.down1 := by
      show (if y.finalize.cut1 = y.G then true else y.down1) = (if x.finalize.cut1 = x.G then true else x.down1)
      rw [e1, hG, h3]
    cases tran
    · exact ⟨d0, e0⟩
    · exact ⟨d1, e1⟩

theorem material_same (x : Mat K) (h : GoodMat x) : SameMat false x (readMat x x.M).finalize := by
  obtain ⟨y, rfl, h0, h1, h2, h3⟩ := h
  have hG : y.finalize.G = y.G := rfl
  have hM : y.finalize.M = y.M := rfl
  have hs : ∀ g < y.G, ∀ gp < y.G, ∀ m < y.M, (readMat y.finalize y.M).sigS g gp m = y.sigS g gp m := by
    intro g hg gp hgp m hm
    show (if m < y.M ∧ g < y.G ∧ gp < y.G then y.sigS g gp m else 0) = _
    rw [if_pos ⟨hm, hg, hgp⟩]
  have hf := finalize_same y (readMat y.finalize y.M) rfl rfl h0.symm h1.symm h2.symm h3.symm hs
  refine ⟨rfl, rfl, fun g hg m hm => ?_, hs, hf.1, hf.2⟩
  have hc : m < y.M ∧ g < y.G := ⟨hm, hg⟩
  refine ⟨if_pos hc, if_pos hc, ?_, if_pos hc, if_pos hc, if_pos hc, fun h => by cases h⟩
  show (if m < y.M ∧ g < y.G then y.nu g m else 1) * (if m < y.M ∧ g < y.G then y.sigF g m else 0) = y.nu g m * y.sigF g m
  rw [if_pos hc, if_pos hc]

/-! ## Programs -/

/-- What has been written last. -/
structure Box (K : Type) where
  inp : Option (DB K) := none
  mat : Option (Mat K) := none
  mesh : Option (MeshData K) := none

/-- The effect of a call on it. -/
def Box.take (b : Box K) : Call K → Box K
  | .writeInput d => { b with inp := some d }
  | .writeMaterial x => { b with mat := some x }
  | .writeMesh x => { b with mesh := some x }
  | _ => b

/-- The right answer: calls that write succeed, reading gives what was written last, or an exception if nothing was. -/
def Answers (all : Bool) (b : Box K) (c : Call K) (a : Except Fail (Reply K)) : Prop :=
  match c with
  | .readInput => (b.inp = none ∧ a = .error .insist) ∨ ∃ d, b.inp = some d ∧ a = .ok (.input d)
  | .readMaterial =>
    (b.mat = none ∧ a = .error .insist) ∨ ∃ x y, b.mat = some x ∧ a = .ok (.material y) ∧ SameMat all x y
  | .readMesh => (b.mesh = none ∧ a = .error .insist) ∨ ∃ x y, b.mesh = some x ∧ a = .ok (.mesh y) ∧ SameMesh x y
  | _ => a = .ok .unit

/-- All answers are right. -/
def Faithful (all : Bool) : Box K → List (Call K) → List (Except Fail (Reply K)) → Prop
  | _, [], as => as = []
  | b, c :: cs, as => ∃ a as', as = a :: as' ∧ Answers all b c a ∧ Faithful all (b.take c) cs as'

/-- What is written is proper. -/
def Call.Good : Call K → Prop
  | .writeInput d => d.Good
  | .writeMaterial x => GoodMat x
  | .writeMesh x => GoodMesh x
  | _ => True

/-- Calls that write, and what they write. -/
inductive Kind where
  | input | material | mesh
  deriving DecidableEq

def Call.writes : Call K → Option Kind
  | .writeInput _ => some .input
  | .writeMaterial _ => some .material
  | .writeMesh _ => some .mesh
  | _ => none

def Call.isClose : Call K → Bool
  | .close => true
  | _ => false

/-- Everything is written before the file is closed for the first time, and each kind of object once. -/
def Once (cs : List (Call K)) : Prop :=
  cs.Pairwise fun a b => b.writes.isSome → a.writes ≠ b.writes ∧ a.isClose = false

/-- A file not in use by the program. -/
def State.Unused (s : State K) : Prop := s.held = false ∧ s.mode = none

/-- State of the file and what was written. -/
def Rel (s : State K) (b : Box K) : Prop :=
  ∃ root, s.disk = some root ∧ root.find "input" = b.inp.map DB.encode ∧ root.find "material" = b.mat.map encodeMat ∧
    root.find "mesh" = b.mesh.map encodeMesh

def Box.Good (b : Box K) : Prop :=
  (∀ d, b.inp = some d → d.Good) ∧ (∀ x, b.mat = some x → GoodMat x) ∧ ∀ x, b.mesh = some x → GoodMesh x

theorem openRead_rel {s : State K} {b : Box K} (h : Rel s b) :
    ∃ s', s.openRead = .ok s' ∧ s'.disk = s.disk ∧ s'.mode.isSome ∧ (s.mode.isSome → s' = s) := by
  obtain ⟨root, hr, -⟩ := h
  rw [State.openRead]
  by_cases hm : s.mode.isSome
  · rw [if_pos hm]
    exact ⟨s, rfl, rfl, hm, fun _ => rfl⟩
  · rw [if_neg hm, hr]
    exact ⟨_, rfl, hr.symm ▸ rfl, rfl, fun h => absurd h hm⟩

/-- No object of the kind yet. -/
def Box.Lacks (b : Box K) : Kind → Prop
  | .input => b.inp = none
  | .material => b.mat = none
  | .mesh => b.mesh = none

theorem names : IsName "input" ∧ IsName "material" ∧ IsName "mesh" := by
  refine ⟨?_, ?_, ?_⟩ <;> (refine ⟨?_, ?_, ?_, ?_⟩ <;> decide)

/-- A write to a file that is open for writing and has no such object. -/
theorem create_rel {s : State K} {root : Kids K} (hr : s.disk = some root) (hm : s.mode = some .rw) (name : String)
    (hn : IsName name) (n : Node K) (l : Bool) (h : root.find name = none) :
    (s.create name n l).disk = some (root.add name n) ∧ (s.create name n l).mode = some .rw ∧
      (root.add name n).find name = some n ∧ ∀ k, k ≠ name → (root.add name n).find k = root.find k := by
  have hc : s.create name n l = { s with disk := some (root.add name n), held := s.held || l } := by
    rw [State.create, hm, hr]
    simp only [h]
    rfl
  refine ⟨by rw [hc], by rw [hc]; exact hm, ?_, fun k hk => ?_⟩
  · rw [Kids.find_add _ _ _ _ hn, h]
    exact if_pos rfl
  · rw [Kids.find_add _ _ _ _ hn, if_neg (Ne.symm hk)]
    cases root.find k <;> rfl

/-- One call: the answer is right and the file keeps up. -/
theorem step_rel {s : State K} {b : Box K} (h : Rel s b) (hb : b.Good) (c : Call K) (hc : c.Good)
    (hw : ∀ k, c.writes = some k → s.mode = some .rw ∧ b.Lacks k) :
    Answers false b c (s.step c).2 ∧ Rel (s.step c).1 (b.take c) ∧ (b.take c).Good ∧
      (s.mode = some .rw → c.isClose = false → (s.step c).1.mode = some .rw) := by
  obtain ⟨s', e, hd, -, hs⟩ := openRead_rel h
  have keep : ∀ s'' : State K, s''.disk = s'.disk → Rel s'' b := by
    intro s'' hs''
    obtain ⟨root, hr, h⟩ := h
    exact ⟨root, by rw [hs'', hd, hr], h⟩
  have mode : s.mode = some .rw → s'.mode = some .rw := by
    intro hm
    rw [hs (by rw [hm]; rfl), hm]
  have look : ∀ name, s'.look name = s.disk.bind fun root => root.find name := by
    intro name
    rw [State.look, hd]
  obtain ⟨root, hr, h1, h2, h3⟩ := h
  obtain ⟨n1, n2, n3⟩ := names
  cases c with
  | writeInput d =>
    obtain ⟨hm, hl⟩ := hw _ rfl
    have ho : s.openWrite = .ok s := if_pos (by rw [hm]; rfl)
    change b.inp = none at hl
    obtain ⟨r1, r2, r3, r4⟩ := create_rel hr hm "input" n1 d.encode true (by rw [h1, hl]; rfl)
    rw [State.step, ho]
    refine ⟨rfl, ⟨_, r1, r3, (r4 _ (by decide)).trans h2, (r4 _ (by decide)).trans h3⟩, ⟨?_, hb.2⟩, fun _ _ => r2⟩
    intro d' hd'
    cases hd'
    exact hc
  | writeMaterial x =>
    obtain ⟨hm, hl⟩ := hw _ rfl
    have ho : s.openWrite = .ok s := if_pos (by rw [hm]; rfl)
    change b.mat = none at hl
    obtain ⟨r1, r2, r3, r4⟩ := create_rel hr hm "material" n2 (encodeMat x) false (by rw [h2, hl]; rfl)
    rw [State.step, ho]
    refine ⟨rfl, ⟨_, r1, (r4 _ (by decide)).trans h1, r3, (r4 _ (by decide)).trans h3⟩, ⟨hb.1, ?_, hb.2.2⟩,
      fun _ _ => r2⟩
    intro d' hd'
    cases hd'
    exact hc
  | writeMesh x =>
    obtain ⟨hm, hl⟩ := hw _ rfl
    have ho : s.openWrite = .ok s := if_pos (by rw [hm]; rfl)
    change b.mesh = none at hl
    obtain ⟨r1, r2, r3, r4⟩ := create_rel hr hm "mesh" n3 (encodeMesh x) true (by rw [h3, hl]; rfl)
    rw [State.step, ho]
    refine ⟨rfl, ⟨_, r1, (r4 _ (by decide)).trans h1, (r4 _ (by decide)).trans h2, r3⟩, ⟨hb.1, hb.2.1, ?_⟩,
      fun _ _ => r2⟩
    intro d' hd'
    cases hd'
    exact hc
  | close =>
    exact ⟨rfl, ⟨root, hr, h1, h2, h3⟩, hb, fun _ h => by cases h⟩
  | readInput =>
    rw [State.step, e]
    simp only
    rw [look, hr, Option.bind_some, h1]
    cases hi : b.inp with
    | none => exact ⟨Or.inl ⟨hi, rfl⟩, keep _ rfl, hb, fun hm _ => mode hm⟩
    | some d =>
      refine ⟨Or.inr ⟨d, hi, ?_⟩, keep _ rfl, hb, fun hm _ => mode hm⟩
      show (d.encode.decode).map Reply.input = _
      rw [d.roundtrip (hb.1 d hi)]
      rfl
  | readMaterial =>
    rw [State.step, e]
    simp only
    rw [look, hr, Option.bind_some, h2]
    cases hi : b.mat with
    | none => exact ⟨Or.inl ⟨hi, rfl⟩, keep _ rfl, hb, fun hm _ => mode hm⟩
    | some x =>
      simp only [Option.map_some, decode_mat]
      exact ⟨Or.inr ⟨x, _, hi, rfl, material_same x (hb.2.1 x hi)⟩, keep _ rfl, hb, fun hm _ => mode hm⟩
  | readMesh =>
    rw [State.step, e]
    simp only
    rw [look, hr, Option.bind_some, h3]
    cases hi : b.mesh with
    | none => exact ⟨Or.inl ⟨hi, rfl⟩, keep _ rfl, hb, fun hm _ => mode hm⟩
    | some x =>
      obtain ⟨y, hy, hxy⟩ := decode_mesh x (hb.2.2 x hi)
      simp only [Option.map_some, hy]
      exact ⟨Or.inr ⟨x, y, hi, rfl, hxy⟩, keep _ rfl, hb, fun hm _ => mode hm⟩

theorem lacks_take {b : Box K} {k : Kind} (h : b.Lacks k) (c : Call K) (hc : c.writes ≠ some k) : (b.take c).Lacks k := by
  cases c <;> cases k <;> first | exact h | exact absurd rfl hc

theorem run_rel (cs : List (Call K)) : ∀ (s : State K) (b : Box K), Rel s b → b.Good → (∀ c ∈ cs, c.Good) → Once cs →
    (∀ c ∈ cs, ∀ k, c.writes = some k → s.mode = some .rw ∧ b.Lacks k) → Faithful false b cs (s.run cs).2 := by
  induction cs with
  | nil => intros; rfl
  | cons c cs ih =>
    intro s b h hb hg ho hw
    obtain ⟨ha, hr, hb', hm⟩ := step_rel h hb c (hg c (List.mem_cons_self ..)) (hw c (List.mem_cons_self ..))
    have hp := List.pairwise_cons.1 ho
    refine ⟨_, _, rfl, ha, ih _ _ hr hb' (fun c' hc' => hg c' (List.mem_cons_of_mem _ hc')) hp.2 ?_⟩
    intro c' hc' k hk
    obtain ⟨q1, q2⟩ := hw c' (List.mem_cons_of_mem _ hc') k hk
    obtain ⟨p1, p2⟩ := hp.1 c' hc' (by rw [hk]; rfl)
    exact ⟨hm q1 p2, lacks_take q2 c (by rw [← hk]; exact p1)⟩

/-- Full statement: a program that writes proper objects to a file, starting with a write, and reads them back, in any
    order and closing the file as it likes, reads what it wrote last. -/
def C114Claim (K : Type) [Field K] [LinearOrder K] : Prop :=
  ∀ (s : State K) (c : Call K) (cs : List (Call K)), s.Unused → c.writes.isSome → (∀ d ∈ c :: cs, d.Good) →
    Faithful true {} (c :: cs) (s.run (c :: cs)).2

/-- **C114 (partial).**  Programs that write each kind of object at most once, and before the file is closed for the first
    time, read what they wrote: databases, meshes, and materials but for the diffusion coefficients.  It does not matter
    what the file contained before, when and how often they read, or close the file after the last write, or which of
    the three kinds they write.
    Missing: diffusion coefficients (`C114_diff`), writing a kind again (`C114_second_write`), writing after the file has
    been closed (`C114_truncates`, `C114_rewrite_refused`) or read (`C114_readonly`). -/
theorem C114_faithful_partial (s : State K) (hs : s.Unused) (c : Call K) (cs : List (Call K)) (hc : c.writes.isSome)
    (hg : ∀ d ∈ c :: cs, d.Good) (ho : Once (c :: cs)) : Faithful false {} (c :: cs) (s.run (c :: cs)).2 := by
  -- the first call empties the file
  have e : s.openWrite = .ok { s with disk := some .nil, mode := some .rw } := by
    rw [State.openWrite, hs.1, hs.2]
    rfl
  have r : s.run (c :: cs) = State.run { s with disk := some .nil, mode := some .rw } (c :: cs) := by
    have : s.step c = State.step { s with disk := some .nil, mode := some .rw } c := by
      cases c with
      | writeInput d => rw [State.step, State.step, e]; rfl
      | writeMaterial x => rw [State.step, State.step, e]; rfl
      | writeMesh x => rw [State.step, State.step, e]; rfl
      | close => cases hc
      | readInput => cases hc
      | readMaterial => cases hc
      | readMesh => cases hc
    rw [State.run, State.run, this]
  rw [r]
  refine run_rel _ _ _ ⟨.nil, rfl, rfl, rfl, rfl⟩ ⟨?_, ?_, ?_⟩ hg ho ?_
  · intro d h; cases h
  · intro d h; cases h
  · intro d h; cases h
  · intro d _ k _
    exact ⟨rfl, by cases k <;> rfl⟩

/-- **C114 (diffusion coefficients).**  Reading a material that was written gives the absorption cross section for the
    diffusion coefficient. -/
theorem C114_diff (x : Mat K) : ∃ y, decodeMat (encodeMat x) = .ok y ∧ ∀ g < x.G, ∀ m < x.M, y.diff g m = x.sigA g m := by
  refine ⟨_, decode_mat x, fun g hg m hm => ?_⟩
  exact if_pos (⟨hm, hg⟩ : m < x.M ∧ g < x.G)

/-- **C114 (second write).**  Writing an object of a kind that an open file has changes nothing, and no error is
    reported. -/
theorem C114_second_write (s : State K) (hm : s.mode.isSome) (c : Call K) (name : String)
    (hc : (c.writes, name) ∈ [(some Kind.input, "input"), (some Kind.material, "material"), (some Kind.mesh, "mesh")])
    (h : (s.look name).isSome) : s.step c = (s, .ok .unit) := by
  have e : s.openWrite = .ok s := if_pos hm
  have hk : ∀ (n : Node K) l, s.create name n l = s := by
    intro n l
    rw [State.create]
    split
    · rename_i root hm hd
      rw [State.look, hd, Option.bind_some] at h
      rw [if_pos h]
    · rfl
  cases c with
  | writeInput d =>
    obtain rfl : name = "input" := by simpa [Call.writes] using hc
    rw [State.step, e]
    simp only [hk]
  | writeMaterial x =>
    obtain rfl : name = "material" := by simpa [Call.writes] using hc
    rw [State.step, e]
    simp only [hk]
  | writeMesh x =>
    obtain rfl : name = "mesh" := by simpa [Call.writes] using hc
    rw [State.step, e]
    simp only [hk]
  | close => simp [Call.writes] at hc
  | readInput => simp [Call.writes] at hc
  | readMaterial => simp [Call.writes] at hc
  | readMesh => simp [Call.writes] at hc

theorem create_mode (s : State K) (name : String) (n : Node K) (l : Bool) : (s.create name n l).mode = s.mode := by
  rw [State.create]
  split
  · split <;> rfl
  · rfl

/-- **C114 (refused).**  After an input or a mesh was written to an unused file and the file was closed, all writes throw. -/
theorem C114_rewrite_refused (s : State K) (hs : s.Unused) (c d : Call K)
    (hc : c.writes = some .input ∨ c.writes = some .mesh) (hd : d.writes.isSome) :
    (s.run [c, .close, d]).2 = [.ok .unit, .ok .unit, .error .insist] := by
  have e : s.openWrite = .ok { s with disk := some .nil, mode := some .rw } := by
    rw [State.openWrite, hs.1, hs.2]
    rfl
  have key : ∀ s' : State K, s'.held = true → s'.mode = none → (s'.step d).2 = .error .insist := by
    intro s' h1 h2
    have e' : s'.openWrite = .error .insist := by
      rw [State.openWrite, h1, h2]
      rfl
    cases d with
    | writeInput d => rw [State.step, e']
    | writeMaterial x => rw [State.step, e']
    | writeMesh x => rw [State.step, e']
    | close => cases hd
    | readInput => cases hd
    | readMaterial => cases hd
    | readMesh => cases hd
  obtain ⟨st, hst, hh⟩ : ∃ st, s.step c = (st, .ok .unit) ∧ st.held = true := by
    cases c with
    | writeInput d =>
      rw [State.step, e]
      exact ⟨_, rfl, by rw [hs.1]; rfl⟩
    | writeMesh x =>
      rw [State.step, e]
      exact ⟨_, rfl, by rw [hs.1]; rfl⟩
    | writeMaterial x => rcases hc with h | h <;> cases h
    | close => rcases hc with h | h <;> cases h
    | readInput => rcases hc with h | h <;> cases h
    | readMaterial => rcases hc with h | h <;> cases h
    | readMesh => rcases hc with h | h <;> cases h
  have hcl : st.step .close = ({ st with mode := none }, .ok .unit) := rfl
  simp only [State.run, hst, hcl]
  rw [key { st with mode := none } hh rfl]

/-- **C114 (truncation).**  A mesh written after the file with a material was closed replaces the material. -/
theorem C114_truncates (s : State K) (hs : s.Unused) (x : Mat K) (y : MeshData K) :
    (s.run [.writeMaterial x, .close, .writeMesh y, .readMaterial]).2 =
      [.ok .unit, .ok .unit, .ok .unit, .error .insist] := by
  have e : s.openWrite = .ok { s with disk := some .nil, mode := some .rw } := by
    rw [State.openWrite, hs.1, hs.2]
    rfl
  have h1 : s.step (.writeMaterial x) =
      ({ disk := some (Kids.nil.add "material" (encodeMat x)), held := false, mode := some .rw }, .ok .unit) := by
    rw [State.step, e]
    simp only [State.create, Kids.find, hs.1]
    rfl
  have h2 : State.step (K := K) { disk := some (Kids.nil.add "material" (encodeMat x)), held := false, mode := some .rw } .close =
      ({ disk := some (Kids.nil.add "material" (encodeMat x)), held := false, mode := none }, .ok .unit) := rfl
  have h3 : State.step (K := K) { disk := some (Kids.nil.add "material" (encodeMat x)), held := false, mode := none } (.writeMesh y) =
      ({ disk := some (Kids.nil.add "mesh" (encodeMesh y)), held := true, mode := some .rw }, .ok .unit) := by
    rw [State.step]
    rfl
  have h4 : (State.step (K := K) { disk := some (Kids.nil.add "mesh" (encodeMesh y)), held := true, mode := some .rw } .readMaterial).2 =
      .error .insist := by
    rw [State.step, State.openRead]
    simp only [Option.isSome_some, if_true, State.look, Option.bind_some]
    rw [Kids.find_add _ _ _ _ names.2.2]
    rfl
  simp only [State.run, h1, h2, h3]
  rw [h4]

/-- **C114 (read only).**  After a file was opened by reading, writes are reported as done and change nothing. -/
theorem C114_readonly (s : State K) (h : s.mode = some .ro) (c : Call K) (hc : c.writes.isSome) :
    s.step c = (s, .ok .unit) := by
  have e : s.openWrite = .ok s := if_pos (by rw [h]; rfl)
  have hk : ∀ name (n : Node K) l, s.create name n l = s := by
    intro name n l
    rw [State.create, h]
  cases c with
  | writeInput d => rw [State.step, e]; simp only [hk]
  | writeMaterial x => rw [State.step, e]; simp only [hk]
  | writeMesh x => rw [State.step, e]; simp only [hk]
  | close => cases hc
  | readInput => cases hc
  | readMaterial => cases hc
  | readMesh => cases hc

/-- **C114 (missing file).**  Reading when there is no file is an error and changes nothing. -/
theorem C114_missing (s : State K) (hm : s.mode = none) (hd : s.disk = none) (c : Call K) (hc : c.writes = none)
    (hc' : c.isClose = false) : s.step c = (s, .error .insist) := by
  have e : s.openRead = .error .insist := by
    rw [State.openRead, hm, hd]
    rfl
  cases c with
  | writeInput d => cases hc
  | writeMaterial x => cases hc
  | writeMesh x => cases hc
  | close => cases hc'
  | readInput => rw [State.step, e]
  | readMaterial => rw [State.step, e]
  | readMesh => rw [State.step, e]

/-- **C114 (reading keeps the file).**  Reading a closed file opens it for reading only and leaves its content as it was,
    whatever the answer; with `C114_readonly`, nothing can be written until it is closed. -/
theorem C114_read_keeps (s : State K) (hm : s.mode = none) (root : Kids K) (hd : s.disk = some root) (c : Call K)
    (hc : c.writes = none) (hc' : c.isClose = false) :
    (s.step c).1.disk = some root ∧ (s.step c).1.mode = some .ro := by
  have e : s.openRead = .ok { s with mode := some .ro } := by
    rw [State.openRead, hm, hd]
    rfl
  cases c with
  | writeInput d => cases hc
  | writeMaterial x => cases hc
  | writeMesh x => cases hc
  | close => cases hc'
  | readInput =>
    rw [State.step, e]
    dsimp only
    split
    · exact ⟨hd, rfl⟩
    · exact ⟨hd, rfl⟩
  | readMaterial =>
    rw [State.step, e]
    dsimp only
    split
    · exact ⟨hd, rfl⟩
    · split
      · exact ⟨hd, rfl⟩
      · exact ⟨hd, rfl⟩
  | readMesh =>
    rw [State.step, e]
    dsimp only
    split
    · exact ⟨hd, rfl⟩
    · split
      · exact ⟨hd, rfl⟩
      · exact ⟨hd, rfl⟩

example : (Call.readMesh : Call ℚ).writes = none ∧ (Call.readMesh : Call ℚ).isClose = false := ⟨rfl, rfl⟩

/-- **C114.**  The full statement fails. -/
theorem C114_claim_fails : ¬ C114Claim ℚ := by
  intro h
  let db : Int → DB ℚ := fun i => .mk [("n", i)] [] [] [] [] .nil
  have good : ∀ i, (db i).Good := by
    intro i
    simp only [db, DB.Good, DBs.Good, GoodMap]
    refine ⟨⟨by simp, ?_⟩, ⟨by simp, by simp⟩, ⟨⟨by simp, by simp⟩, by simp⟩, ⟨by simp, by simp⟩, ⟨by simp, by simp⟩, trivial⟩
    intro e he
    rw [List.mem_singleton] at he
    subst he
    show NoNull "n"
    decide
  have := h ⟨none, false, none⟩ (.writeInput (db 1)) [.close, .writeInput (db 2)] ⟨rfl, rfl⟩ rfl (by
    intro d hd
    simp only [List.mem_cons, List.not_mem_nil, or_false] at hd
    rcases hd with rfl | rfl | rfl
    · exact good 1
    · trivial
    · exact good 2)
  rw [C114_rewrite_refused ⟨none, false, none⟩ ⟨rfl, rfl⟩ _ _ (Or.inl rfl) rfl] at this
  obtain ⟨a, as, e1, -, h1⟩ := this
  cases e1
  obtain ⟨a, as, e2, -, h2⟩ := h1
  cases e2
  obtain ⟨a, as, e3, h3, -⟩ := h2
  cases e3
  cases h3

/-- **C114 (names of nested databases).**  A nested database whose name contains a slash, or is empty, is not read back:
    the database comes back without it. -/
theorem C114_nested_lost (k : String) (hk : linkName k = none) (d : DB K) (i : SMap Int) (hi : GoodMap i) :
    (DB.encode (.mk i [] [] [] [] (.cons k d .nil))).decode = .ok (.mk i [] [] [] [] .nil) := by
  have e : (DBs.cons k d .nil).encode .nil = (DBs.nil (K := K)).encode .nil := by
    rw [DBs.encode, DBs.encode, DBs.encode, Kids.add, hk]
  have h2 : DB.encode (.mk i [] [] [] [] (.cons k d .nil)) = DB.encode (K := K) (.mk i [] [] [] [] .nil) := by
    rw [DB.encode, DB.encode, e]
  rw [h2]
  refine DB.roundtrip _ ?_
  simp only [DB.Good, DBs.Good, GoodMap]
  exact ⟨hi, ⟨by simp, by simp⟩, ⟨⟨by simp, by simp⟩, by simp⟩, ⟨by simp, by simp⟩, ⟨by simp, by simp⟩, trivial⟩

/-- **C114 (names of nested databases, continued).**  Of two nested databases whose names stand for the same link (as
    `a` and `a/`), the second is not read back and the first stays as it was. -/
theorem C114_nested_same (k k' : String) (hk : IsName k) (hk' : linkName k' = some k) (d d' : DB K) (hd : d.Good)
    (i : SMap Int) (hi : GoodMap i) :
    (DB.encode (.mk i [] [] [] [] (.cons k d (.cons k' d' .nil)))).decode =
      .ok (.mk i [] [] [] [] (.cons k d .nil)) := by
  have e : (DBs.cons k d (.cons k' d' .nil)).encode .nil = (DBs.cons k d .nil).encode .nil := by
    simp only [DBs.encode, Kids.add, hk', linkName_eq hk, Kids.find, Option.isSome_none, Kids.snoc]
    simp [Kids.find]
  have h2 : DB.encode (.mk i [] [] [] [] (.cons k d (.cons k' d' .nil))) =
      DB.encode (.mk i [] [] [] [] (.cons k d .nil)) := by
    rw [DB.encode, DB.encode, e]
  rw [h2]
  refine DB.roundtrip _ ?_
  simp only [DB.Good, DBs.Good, GoodMap]
  exact ⟨hi, ⟨by simp, by simp⟩, ⟨⟨by simp, by simp⟩, by simp⟩, ⟨by simp, by simp⟩, ⟨by simp, by simp⟩,
    hk, rfl, hd, trivial⟩

/-- Such names. -/
example : IsName "a" ∧ linkName "a/" = some "a" ∧ linkName "./a" = some "a" := by decide +kernel

/-- **C114 (files of others).**  A group without one of the tables, a material group without its attributes: undefined
    rather than an exception. -/
theorem C114_foreign (a : SMap Int) (ks : Kids K) :
    (ks.find "int_data" = none → (Node.group a ks).decode = .error .ub) ∧
    (a.find "number_groups" = none → decodeMat (.group a ks) = .error .ub) := by
  refine ⟨fun h => ?_, fun h => ?_⟩
  · rw [Node.decode, readTable, h]
    rfl
  · rw [decodeMat, readAttr, h]
    rfl

/-! ## Concrete cases -/

/-- The database of the examples: one of each kind, and nested databases. -/
def exDB : DB ℚ :=
  .mk [("number_groups", 2), ("dimension", -1)] [("tol", 1 / 1000)] [("equation", "dd"), ("empty", "")] [("v", [1, -2])] []
    (.cons "inner" (.mk [] [("x", 5)] [] [] [] .nil) (.cons "outer" (.mk [] [] [] [] [("w", [1, 2])] .nil) .nil))

/-- The material of the examples. -/
def exMat : Mat ℚ :=
  ({ Mat.new 1 2 with sigT := fun g _ => g + 1, sigA := fun _ _ => 1 / 2, diff := fun _ _ => 3
                      sigS := fun g gp _ => if g = 1 ∧ gp = 0 then 1 / 4 else 0 } : Mat ℚ).finalize

/-- The mesh of the examples. -/
def exMesh : MeshData ℚ := ⟨2, [1, 2], [3], [1], [("MATERIAL", [0, 1]), ("PINS", [5, 5])]⟩

/-- They are proper. -/
theorem ex_good : exDB.Good ∧ GoodMat exMat ∧ GoodMesh exMesh := by
  refine ⟨?_, ⟨_, rfl, rfl, rfl, rfl, rfl⟩, ?_⟩
  · simp only [exDB, DB.Good, DBs.Good, GoodMap, IsName, DBs.find, List.map_cons, List.map_nil, List.forall_mem_cons,
      List.not_mem_nil, false_imp_iff, implies_true, and_true, true_and, List.nodup_nil, if_neg]
    decide +kernel
  · simp only [exMesh, GoodMesh, GoodMap]
    decide +kernel

/-- A program that the theorem covers. -/
example : Once ([.writeInput exDB, .readInput, .writeMaterial exMat, .writeMesh exMesh, .close, .readMesh, .close,
      .readMaterial, .readInput] : List (Call ℚ)) ∧
    (⟨some .nil, false, none⟩ : State ℚ).Unused := by
  refine ⟨?_, rfl, rfl⟩
  simp [Once, Call.writes, Call.isClose]

/-- The diffusion coefficient 3 comes back as 1/2. -/
example : ((decodeMat (encodeMat exMat)).map fun y => (y.diff 0 0, y.sigT 1 0, y.sigS 1 0 0)) = .ok (1 / 2, 2, 1 / 4) := by
  decide +kernel

/-- Names with a slash, and the empty one, are no names of links. -/
example : linkName "a/b" = none ∧ linkName "" = none ∧ linkName "." = none ∧ linkName "inner" = some "inner" := by
  decide

end

end Detran.Hdf5
