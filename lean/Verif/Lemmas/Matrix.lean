import Verif.Model.Matrix
import Mathlib.Algebra.BigOperators.Group.List.Basic
import Mathlib.Data.List.Induction
import Mathlib.Tactic.Ring
import Mathlib.Tactic.Common

namespace Detran.Matrix

variable {K : Type} [Field K]

/-- Weighted sum of a list of triplets. -/
def rsum (f : Int → K) (l : List (Trip K)) : K := (l.map (fun t => t.v * f t.j)).sum

theorem rsum_append (f : Int → K) (a b : List (Trip K)) :
    rsum f (a ++ b) = rsum f a + rsum f b := by simp [rsum]

theorem rsum_cons (f : Int → K) (t : Trip K) (b : List (Trip K)) :
    rsum f (t :: b) = t.v * f t.j + rsum f b := by simp [rsum]

theorem rsum_pad (f : Int → K) (k : Nat) : rsum f (List.replicate k (pad : Trip K)) = 0 := by
  simp [rsum, pad]

theorem rsum_perm (f : Int → K) {a b : List (Trip K)} (h : a.Perm b) : rsum f a = rsum f b :=
  (h.map _).sum_eq

/-- A stored entry of row `i` that lies inside the matrix. -/
def ValidT (n i : Nat) (t : Trip K) : Prop := t.i = i ∧ 0 ≤ t.j ∧ t.j < n

/-- Shape of a row buffer with `fl` the entries stored so far. -/
def RowBuf.Holds (n i : Nat) (r : RowBuf K) (fl : List (Trip K)) : Prop :=
  r.slots = fl ++ List.replicate (r.slots.length - fl.length) pad ∧ r.cnt = fl.length ∧
  fl.length ≤ r.slots.length ∧ ∀ t ∈ fl, ValidT n i t

theorem addTo_none (j : Int) (v : K) (l : List (Trip K)) :
    addTo j v l = none ↔ ∀ t ∈ l, t.j ≠ j := by
  induction l with
  | nil => simp [addTo]
  | cons t l ih =>
    by_cases h : t.j = j
    · simp [addTo, h]
    · simp [addTo, h, ih]

theorem addTo_append (j : Int) (v : K) (l b : List (Trip K)) (hb : ∀ t ∈ b, t.j ≠ j) :
    addTo j v (l ++ b) = (addTo j v l).map (· ++ b) := by
  induction l with
  | nil =>
    have := (addTo_none j v b).2 hb
    simp [addTo, this]
  | cons t l ih =>
    by_cases h : t.j = j
    · simp [addTo, h]
    · simp only [List.cons_append, addTo, h, if_false, ih, Option.map_map]
      rfl

theorem addTo_some (j : Int) (v : K) (l l' : List (Trip K)) (h : addTo j v l = some l') :
    l'.length = l.length ∧ (∀ f, rsum f l' = rsum f l + v * f j) ∧
    (∃ t ∈ l, t.j = j) ∧ l'.map (fun t => (t.i, t.j)) = l.map (fun t => (t.i, t.j)) := by
  induction l generalizing l' with
  | nil => simp [addTo] at h
  | cons t l ih =>
    by_cases hj : t.j = j
    · simp only [addTo, hj, if_true, Option.some.injEq] at h
      subst h
      refine ⟨by simp, fun f => ?_, ⟨t, by simp, hj⟩, by simp [hj]⟩
      simp only [rsum_cons, hj]
      ring
    · simp only [addTo, hj, if_false] at h
      cases h2 : addTo j v l with
      | none => simp [h2] at h
      | some q =>
        simp only [h2, Option.map_some, Option.some.injEq] at h
        subst h
        obtain ⟨h3, h4, ⟨u, hu, hu2⟩, h5⟩ := ih q h2
        refine ⟨by simp [h3], fun f => ?_, ⟨u, List.mem_cons_of_mem _ hu, hu2⟩, by simp [h5]⟩
        rw [rsum_cons, rsum_cons, h4]
        ring

theorem valid_of_map (n i : Nat) (l l' : List (Trip K))
    (h : l'.map (fun t => (t.i, t.j)) = l.map (fun t => (t.i, t.j)))
    (hl : ∀ t ∈ l, ValidT n i t) : ∀ t ∈ l', ValidT n i t := by
  intro t ht
  have : (t.i, t.j) ∈ l.map (fun t => (t.i, t.j)) := h ▸ List.mem_map_of_mem ht
  obtain ⟨u, hu, he⟩ := List.mem_map.1 this
  simp only [Prod.mk.injEq] at he
  have := hl u hu
  exact ⟨he.1 ▸ this.1, he.2 ▸ this.2.1, he.2 ▸ this.2.2⟩

theorem holds_put (n i : Nat) (r r' : RowBuf K) (fl : List (Trip K)) (j : Int) (v : K)
    (h : r.Holds n i fl) (hj0 : 0 ≤ j) (hjn : j < n) (hp : r.put i j v = some r') :
    r'.Holds n i (fl ++ [⟨i, j, v⟩]) ∧ r'.slots.length = r.slots.length := by
  unfold RowBuf.put at hp
  split at hp
  · rename_i hlt
    obtain ⟨h1, h2, h3, h4⟩ := h
    simp only [Option.some.injEq] at hp
    subst hp
    rw [h2] at hlt
    obtain ⟨k, hk⟩ : ∃ k, r.slots.length - fl.length = k + 1 := ⟨_, (Nat.succ_pred (by omega)).symm⟩
    refine ⟨⟨?_, by simp [h2], by simp; omega, ?_⟩, by simp⟩
    · simp only [List.length_set, List.length_append, List.length_singleton]
      rw [show r.slots.length - (fl.length + 1) = k by omega, h2]
      conv_lhs => rw [h1, hk, List.set_append_right _ _ (le_refl _), List.replicate_succ]
      simp
    · intro t ht
      rcases List.mem_append.1 ht with ht | ht
      · exact h4 t ht
      · simp at ht
        subst ht
        exact ⟨rfl, hj0, hjn⟩
  · simp at hp

theorem put_some_iff (r : RowBuf K) (i : Nat) (j : Int) (v : K) :
    (∃ r', r.put i j v = some r') ↔ r.cnt < r.slots.length := by
  unfold RowBuf.put
  split <;> simp_all

/-- One single-entry insertion. -/
theorem holds_insert (n i : Nat) (r : RowBuf K) (fl : List (Trip K)) (j : Int) (v : K) (add : Bool)
    (h : r.Holds n i fl) (hj0 : 0 ≤ j) (hjn : j < n) :
    ((r.insert i j v add).1.slots.length = r.slots.length) ∧
    ((r.insert i j v add).2 = true ↔
      fl.length < r.slots.length ∨ (add = true ∧ ∃ t ∈ fl, t.j = j)) ∧
    ((r.insert i j v add).2 = false → (r.insert i j v add).1 = r) ∧
    ((r.insert i j v add).2 = true → ∃ fl', (r.insert i j v add).1.Holds n i fl' ∧
      (∀ f, rsum f fl' = rsum f fl + v * f j) ∧
      (add = true ∧ (∃ t ∈ fl, t.j = j) → fl'.map (fun t => t.j) = fl.map (fun t => t.j)) ∧
      (¬ (add = true ∧ ∃ t ∈ fl, t.j = j) →
        fl'.map (fun t => t.j) = fl.map (fun t => t.j) ++ [j])) := by
  have hpadj : ∀ t ∈ List.replicate (r.slots.length - fl.length) (pad : Trip K), t.j ≠ j := by
    intro t ht
    rw [List.eq_of_mem_replicate ht]
    simp [pad]
    omega
  have hadd : addTo j v r.slots =
      (addTo j v fl).map (· ++ List.replicate (r.slots.length - fl.length) pad) := by
    conv_lhs => rw [h.1]
    exact addTo_append j v fl _ hpadj
  -- the plain insertion
  have plain : (add = false ∨ ∀ t ∈ fl, t.j ≠ j) →
      r.insert i j v add = (match r.put i j v with | some r' => (r', true) | none => (r, false)) := by
    intro hc
    unfold RowBuf.insert
    rcases hc with hc | hc
    · simp [hc]
      rfl
    · have : addTo j v r.slots = none := by rw [hadd, (addTo_none j v fl).2 hc]; rfl
      rw [this]
      simp
      rfl
  by_cases hc : add = true ∧ ∃ t ∈ fl, t.j = j
  · obtain ⟨ha, hex⟩ := hc
    cases h2 : addTo j v fl with
    | none =>
      obtain ⟨t, ht, htj⟩ := hex
      exact absurd htj ((addTo_none j v fl).1 h2 t ht)
    | some fl' =>
      have e : r.insert i j v add =
          ({ r with slots := fl' ++ List.replicate (r.slots.length - fl.length) pad }, true) := by
        unfold RowBuf.insert
        rw [if_pos ha, hadd, h2]
        rfl
      obtain ⟨h3, h4, _, h5⟩ := addTo_some j v fl fl' h2
      rw [e]
      have hlen : (fl' ++ List.replicate (r.slots.length - fl.length) (pad : Trip K)).length
          = r.slots.length := by
        simp [h3]
        have := h.2.2.1
        omega
      have e2 : fl'.map (fun t => t.j) = fl.map (fun t => t.j) := by
        have := congrArg (List.map Prod.snd) h5
        simpa [List.map_map, Function.comp_def] using this
      refine ⟨hlen, by simp [ha, hex], by simp, fun _ => ⟨fl', ⟨?_, ?_, ?_, ?_⟩, h4, fun _ => e2,
        fun h6 => absurd ⟨ha, hex⟩ h6⟩⟩
      · simp only
        rw [hlen, h3]
      · simp [h3, h.2.1]
      · simp
      · exact valid_of_map n i fl fl' h5 h.2.2.2
  · have hc' : add = false ∨ ∀ t ∈ fl, t.j ≠ j := by
      cases add
      · exact .inl rfl
      · exact .inr fun t ht hj => hc ⟨rfl, t, ht, hj⟩
    rw [plain hc']
    cases hp : r.put i j v with
    | none =>
      have : ¬ r.cnt < r.slots.length := fun hlt => by
        obtain ⟨r', hr'⟩ := (put_some_iff r i j v).2 hlt
        rw [hp] at hr'
        exact absurd hr' (by simp)
      rw [h.2.1] at this
      simp [this]
      intro ha t ht hj
      exact hc ⟨ha, t, ht, hj⟩
    | some r' =>
      have hlt := (put_some_iff r i j v).1 ⟨r', hp⟩
      rw [h.2.1] at hlt
      obtain ⟨h3, h4⟩ := holds_put n i r r' fl j v h hj0 hjn hp
      refine ⟨h4, by simp [hlt], by simp, fun _ => ⟨_, h3, fun f => ?_, fun h6 => absurd h6 hc,
        fun _ => by simp⟩⟩
      rw [rsum_append, rsum_cons]
      simp [rsum]

/-! ## Sorting and trimming -/

theorem sorted_split (l : List (Trip K)) (h : l.Pairwise (fun a b => cmp b a = false)) :
    ∃ a b, l = a ++ b ∧ (∀ t ∈ a, t.j ≠ -1) ∧ (∀ t ∈ b, t.j = -1) ∧
      a.Pairwise (fun s t => s.j ≤ t.j) := by
  induction l with
  | nil => exact ⟨[], [], by simp⟩
  | cons t l ih =>
    rw [List.pairwise_cons] at h
    obtain ⟨a, b, rfl, ha, hb, hs⟩ := ih h.2
    by_cases ht : t.j = -1
    · refine ⟨[], t :: (a ++ b), by simp, by simp, ?_, by simp⟩
      intro u hu
      rcases List.mem_cons.1 hu with rfl | hu
      · exact ht
      · have := h.1 u hu
        unfold cmp at this
        by_contra hne
        simp [hne, ht] at this
    · refine ⟨t :: a, b, by simp, ?_, hb, ?_⟩
      · intro u hu
        rcases List.mem_cons.1 hu with rfl | hu
        · exact ht
        · exact ha u hu
      · rw [List.pairwise_cons]
        refine ⟨fun u hu => ?_, hs⟩
        have h1 := h.1 u (List.mem_append_left _ hu)
        unfold cmp at h1
        have h2 := ha u hu
        simp [h2, ht] at h1
        exact h1

theorem trim_split (a b : List (Trip K)) (ha : ∀ t ∈ a, t.j ≠ -1) (hb : ∀ t ∈ b, t.j = -1) :
    trim (a ++ b) = if a = [] then none else some a := by
  unfold trim
  have h1 : (a ++ b).reverse.dropWhile (fun t => decide (t.j = -1)) = a.reverse := by
    rw [List.reverse_append, List.dropWhile_append_of_pos]
    · rcases List.eq_nil_or_concat a with rfl | ⟨a', x, rfl⟩
      · rfl
      · rw [List.concat_eq_append, List.reverse_append]
        simp only [List.reverse_singleton, List.singleton_append]
        rw [List.dropWhile_cons_of_neg]
        have := ha x (by simp)
        simpa using this
    · intro t ht
      simpa using hb t (List.mem_reverse.1 ht)
  rw [h1]
  by_cases he : a = []
  · subst he
    rfl
  · rw [if_neg he]
    cases h2 : a.reverse with
    | nil => exact absurd (List.reverse_eq_nil_iff.1 h2) he
    | cons x y =>
      simp only
      rw [← h2, List.reverse_reverse]

/-- Trimming a sorted row leaves exactly its real entries, in column order. -/
theorem trim_sort (srt : List (Trip K) → List (Trip K)) (hs : IsSort srt) (fl : List (Trip K))
    (k : Nat) (hfl : ∀ t ∈ fl, t.j ≠ -1) :
    (fl = [] → trim (srt (fl ++ List.replicate k pad)) = none) ∧
    (fl ≠ [] → ∃ a, trim (srt (fl ++ List.replicate k pad)) = some a ∧ a.Perm fl ∧
      a.Pairwise (fun s t => s.j ≤ t.j)) := by
  obtain ⟨hp, hsort⟩ := hs (fl ++ List.replicate k pad)
  obtain ⟨a, b, hab, ha, hb, hpw⟩ := sorted_split _ hsort
  have hperm : a.Perm fl := by
    have h1 := (hp.filter (fun t => decide (t.j ≠ -1)))
    rw [hab, List.filter_append, List.filter_append] at h1
    rw [List.filter_eq_self.2 (by simpa using ha), List.filter_eq_nil_iff.2 (by simpa using hb),
      List.filter_eq_self.2 (by simpa using hfl),
      List.filter_eq_nil_iff.2 (by
        intro t ht
        rw [List.eq_of_mem_replicate ht]
        simp [pad])] at h1
    simpa using h1
  rw [hab, trim_split a b ha hb]
  constructor
  · rintro rfl
    rw [if_pos (List.Perm.eq_nil hperm)]
  · intro hne
    refine ⟨a, if_neg ?_, hperm, hpw⟩
    rintro rfl
    exact hne (List.Perm.nil_eq hperm).symm

theorem diagSearch_spec (i : Nat) (r : List (Trip K)) (d : Nat)
    (hv : ∀ t ∈ r, t.i = i) (hs : r.Pairwise (fun s t => s.j ≤ t.j)) :
    ((∃ t ∈ r, t.j = i) → diagSearch r d = 0) ∧
    ((¬ ∃ t ∈ r, t.j = i) → d ≤ diagSearch r d ∧ diagSearch r d ≤ d + r.length ∧
      (r ≠ [] → d < diagSearch r d)) := by
  induction r generalizing d with
  | nil => simp [diagSearch]
  | cons t r ih =>
    rw [List.pairwise_cons] at hs
    have hti := hv t List.mem_cons_self
    obtain ⟨ih1, ih2⟩ := ih (d + 1) (fun u hu => hv u (List.mem_cons_of_mem _ hu)) hs.2
    constructor
    · rintro ⟨u, hu, huj⟩
      by_cases h : t.j = t.i
      · simp [diagSearch, h]
      · have hur : u ∈ r := by
          rcases List.mem_cons.1 hu with rfl | hu
          · exact absurd (huj.trans hti.symm) h
          · exact hu
        have := hs.1 u hur
        have hng : ¬ t.j > t.i := by omega
        simp only [diagSearch, h, hng, if_false]
        exact ih1 ⟨u, hur, huj⟩
    · intro hne
      have h : t.j ≠ t.i := fun h => hne ⟨t, List.mem_cons_self, h.trans hti⟩
      have hne2 : ¬ ∃ t ∈ r, t.j = i := fun ⟨u, hu, hu2⟩ => hne ⟨u, List.mem_cons_of_mem _ hu, hu2⟩
      by_cases hg : t.j > t.i
      · simp [diagSearch, h, hg]
      · simp only [diagSearch, h, hg, if_false, List.length_cons]
        obtain ⟨a, b, _⟩ := ih2 hne2
        exact ⟨by omega, by omega, fun _ => by omega⟩

/-- Specification of one assembled row: the stored entries in column order, plus an
    explicit zero on the diagonal when it was missing. -/
theorem assembleRow_spec (srt : List (Trip K) → List (Trip K)) (hs : IsSort srt) (n i : Nat)
    (r : RowBuf K) (fl : List (Trip K)) (h : r.Holds n i fl) :
    (fl = [] → assembleRow srt n i r.slots = none) ∧
    (fl ≠ [] → ∃ a, assembleRow srt n i r.slots = some a ∧
      a.Pairwise (fun s t => s.j ≤ t.j) ∧ (∀ t ∈ a, ValidT n i t) ∧
      (i < n → ∃ t ∈ a, t.j = i) ∧
      (a.Perm fl ∨ ((¬ ∃ t ∈ fl, t.j = i) ∧ i < n ∧ a.Perm (⟨i, i, 0⟩ :: fl)))) := by
  have hfl : ∀ t ∈ fl, t.j ≠ -1 := fun t ht => by have := (h.2.2.2 t ht).2.1; omega
  obtain ⟨t1, t2⟩ := trim_sort srt hs fl (r.slots.length - fl.length) hfl
  rw [← h.1] at t1 t2
  unfold assembleRow
  constructor
  · intro he
    rw [t1 he]
    rfl
  · intro hne
    obtain ⟨a, ha, hperm, hpw⟩ := t2 hne
    rw [ha]
    have hva : ∀ t ∈ a, ValidT n i t := fun t ht => h.2.2.2 t (hperm.mem_iff.1 ht)
    have hane : a ≠ [] := by
      rintro rfl
      exact hne (List.Perm.nil_eq hperm).symm
    by_cases hin : i < n
    · obtain ⟨d1, d2⟩ := diagSearch_spec i a 0 (fun t ht => (hva t ht).1) hpw
      by_cases hex : ∃ t ∈ a, t.j = i
      · refine ⟨a, by simp [hin, d1 hex], hpw, hva, fun _ => hex, .inl hperm⟩
      · obtain ⟨_, e2, e3⟩ := d2 hex
        have e3 := e3 hane
        obtain ⟨d, hd⟩ : ∃ d, diagSearch a 0 = d + 1 := ⟨_, (Nat.succ_pred (by omega)).symm⟩
        have hp2 : (srt (a.insertIdx d ⟨i, i, 0⟩)).Perm (⟨i, i, 0⟩ :: a) :=
          (hs _).1.trans (List.perm_insertIdx _ _ (by omega))
        have hv2 : ∀ t ∈ srt (a.insertIdx d ⟨i, i, 0⟩), ValidT n i t := by
          intro t ht
          rcases List.mem_cons.1 (hp2.mem_iff.1 ht) with rfl | ht
          · exact ⟨rfl, by simp, by simpa using hin⟩
          · exact hva t ht
        refine ⟨srt (a.insertIdx d ⟨i, i, 0⟩), by simp [hin, hd], ?_, hv2, ?_, .inr ⟨?_, hin, ?_⟩⟩
        · refine (hs (a.insertIdx d ⟨i, i, 0⟩)).2.imp_of_mem ?_
          intro s t hsm htm hc
          have h1 := (hv2 s hsm).2.1
          have h2 := (hv2 t htm).2.1
          unfold cmp at hc
          have n1 : s.j ≠ -1 := by omega
          have n2 : t.j ≠ -1 := by omega
          simpa [n1, n2] using hc
        · intro _
          exact ⟨_, hp2.mem_iff.2 List.mem_cons_self, rfl⟩
        · rintro ⟨t, ht, htj⟩
          exact hex ⟨t, hperm.mem_iff.2 ht, htj⟩
        · exact hp2.trans (hperm.cons _)
    · refine ⟨a, by simp [hin], hpw, hva, fun hc => absurd hc hin, .inl hperm⟩

/-! ## Filling the compressed rows -/

theorem fillRow_spec (i : Nat) (row : List (Trip K)) (p : Nat) (cols : List Int) (vals : List K)
    (d : Option Nat) :
    (fillRow i row p cols vals d).1 = p + row.length ∧
    (fillRow i row p cols vals d).2.1 = cols ++ row.map (fun t => t.j) ∧
    (fillRow i row p cols vals d).2.2.1 = vals ++ row.map (fun t => t.v) ∧
    ((∀ t ∈ row, t.j ≠ i) → (fillRow i row p cols vals d).2.2.2 = d) ∧
    ((∃ t ∈ row, t.j = i) → ∃ k, ∃ hk : k < row.length,
      (fillRow i row p cols vals d).2.2.2 = some (p + k) ∧ row[k].j = i ∧
      ∀ k', ∀ hk' : k' < row.length, k < k' → row[k'].j ≠ i) := by
  induction row generalizing p cols vals d with
  | nil => simp [fillRow]
  | cons t row ih =>
    obtain ⟨h1, h2, h3, h4, h5⟩ := ih (p + 1) (cols ++ [t.j]) (vals ++ [t.v])
      (if t.j = i then some p else d)
    refine ⟨?_, ?_, ?_, ?_, ?_⟩
    · rw [fillRow, h1]
      simp
      omega
    · rw [fillRow, h2]
      simp
    · rw [fillRow, h3]
      simp
    · intro hn
      rw [fillRow, h4 (fun u hu => hn u (List.mem_cons_of_mem _ hu)),
        if_neg (hn t List.mem_cons_self)]
    · rintro ⟨u, hu, huj⟩
      rw [fillRow]
      by_cases hex : ∃ t ∈ row, t.j = i
      · obtain ⟨k, hk, e1, e2, e3⟩ := h5 hex
        refine ⟨k + 1, by simp; omega, ?_, by simpa using e2, ?_⟩
        · rw [e1]
          congr 1
          omega
        · intro k' hk' hlt
          obtain ⟨q, rfl⟩ : ∃ q, k' = q + 1 := ⟨k' - 1, by omega⟩
          simpa using e3 q (by simpa using hk') (by omega)
      · have hn : ∀ t ∈ row, t.j ≠ i := fun t ht hj => hex ⟨t, ht, hj⟩
        have htj : t.j = i := by
          rcases List.mem_cons.1 hu with rfl | hu
          · exact huj
          · exact absurd huj (hn u hu)
        refine ⟨0, by simp, ?_, by simpa using htj, ?_⟩
        · rw [h4 hn, if_pos htj]
          simp
        · intro k' hk' hlt
          obtain ⟨q, rfl⟩ : ∃ q, k' = q + 1 := ⟨k' - 1, by omega⟩
          simpa using hn _ (List.getElem_mem (by simpa using hk'))

/-- What the diagonal slot of row `i`, which starts at position `off`, ends up holding. -/
def DiagSpec (i off : Nat) (row : List (Trip K)) (d : Option Nat) : Prop :=
  ((∀ t ∈ row, t.j ≠ i) → d = none) ∧
  ((∃ t ∈ row, t.j = i) → ∃ k, ∃ hk : k < row.length, d = some (off + k) ∧ row[k].j = i ∧
      ∀ k', ∀ hk' : k' < row.length, k < k' → row[k'].j ≠ i)

theorem fill_fold (aij : List (List (Trip K))) :
    let st := aij.zipIdx.foldl fillStep (⟨0, [0], [], [], []⟩ : Fill K)
    st.p = aij.flatten.length ∧ st.cols = aij.flatten.map (fun t => t.j) ∧
    st.vals = aij.flatten.map (fun t => t.v) ∧
    st.rows = (List.range (aij.length + 1)).map (fun k => (aij.take k).flatten.length) ∧
    st.diags.length = aij.length ∧
    ∀ i row, aij[i]? = some row → ∃ d, st.diags[i]? = some d ∧
      DiagSpec i (aij.take i).flatten.length row d := by
  induction aij using List.reverseRecOn with
  | nil => simp
  | append_singleton l row ih =>
    obtain ⟨h1, h2, h3, h4, h5, h6⟩ := ih
    simp only [List.zipIdx_append, List.zipIdx_singleton, List.foldl_append, List.foldl_cons,
      List.foldl_nil, Nat.zero_add]
    generalize l.zipIdx.foldl fillStep (⟨0, [0], [], [], []⟩ : Fill K) = st at *
    unfold fillStep
    obtain ⟨e1, e2, e3, e4, e5⟩ := fillRow_spec l.length row st.p st.cols st.vals none
    refine ⟨?_, ?_, ?_, ?_, ?_, ?_⟩
    · simp only [e1]
      rw [h1]
      simp
    · simp only [e2]
      rw [h2]
      simp
    · simp only [e3]
      rw [h3]
      simp
    · simp only [e1, h4, List.length_append, List.length_singleton]
      rw [List.range_succ (n := l.length + 1), List.map_append]
      congr 1
      · refine List.map_congr_left fun k hk => ?_
        have := List.mem_range.1 hk
        rw [List.take_append_of_le_length (by omega)]
      · simp [h1]
    · simp [h5]
    · intro i r hr
      simp only
      rcases Nat.lt_or_ge i l.length with hi | hi
      · rw [List.getElem?_append_left hi] at hr
        obtain ⟨d, hd, hs⟩ := h6 i r hr
        refine ⟨d, ?_, ?_⟩
        · rw [List.getElem?_append_left (by omega)]
          exact hd
        · rw [List.take_append_of_le_length (by omega)]
          exact hs
      · have hil : i = l.length := by
          have h := List.getElem?_eq_some_iff.1 hr
          obtain ⟨h, _⟩ := h
          simp at h
          omega
        subst hil
        simp at hr
        subst hr
        refine ⟨_, by rw [List.getElem?_append_right (by omega)]; simp [h5]; rfl, ?_⟩
        refine ⟨e4, fun hex => ?_⟩
        obtain ⟨k, hk, a, b, c⟩ := e5 hex
        refine ⟨k, hk, ?_, b, c⟩
        rw [a, h1]
        simp

theorem flatten_get (aij : List (List (Trip K))) (i k : Nat) (row : List (Trip K))
    (hr : aij[i]? = some row) (hk : k < row.length) :
    aij.flatten[(aij.take i).flatten.length + k]? = some row[k] := by
  have hi : i < aij.length := (List.getElem?_eq_some_iff.1 hr).1
  have hd : aij = aij.take i ++ row :: aij.drop (i + 1) := by
    conv_lhs => rw [← List.take_append_drop i aij]
    rw [List.drop_eq_getElem_cons hi]
    congr 2
    rw [List.getElem?_eq_getElem hi] at hr
    exact Option.some.inj hr
  have h2 : aij.flatten = (aij.take i).flatten ++ (row ++ (aij.drop (i + 1)).flatten) := by
    conv_lhs => rw [hd]
    simp
  rw [h2, List.getElem?_append_right (by omega), Nat.add_sub_cancel_left,
    List.getElem?_append_left hk, List.getElem?_eq_getElem hk]

theorem take_succ_flatten (aij : List (List (Trip K))) (i : Nat) (row : List (Trip K))
    (hr : aij[i]? = some row) :
    (aij.take (i + 1)).flatten.length = (aij.take i).flatten.length + row.length := by
  have hi : i < aij.length := (List.getElem?_eq_some_iff.1 hr).1
  rw [List.take_succ_eq_append_getElem hi, List.flatten_append, List.length_append]
  rw [List.getElem?_eq_getElem hi] at hr
  simp [Option.some.inj hr]

/-- Everything the accessors see of row `i`. -/
theorem fill_row (m n : Nat) (aij : List (List (Trip K))) (i : Nat) (row : List (Trip K))
    (hr : aij[i]? = some row) :
    (fill m n aij).start i = (aij.take i).flatten.length ∧
    (fill m n aij).stop i = (aij.take i).flatten.length + row.length ∧
    (∀ k, ∀ hk : k < row.length,
      (fill m n aij).column ((aij.take i).flatten.length + k) = row[k].j ∧
      (fill m n aij).value ((aij.take i).flatten.length + k) = row[k].v) ∧
    DiagSpec i (aij.take i).flatten.length row ((fill m n aij).diagonal i) := by
  obtain ⟨h1, h2, h3, h4, h5, h6⟩ := fill_fold aij
  have hi : i < aij.length := (List.getElem?_eq_some_iff.1 hr).1
  refine ⟨?_, ?_, ?_, ?_⟩
  · simp only [CSR.start, fill, List.getD_eq_getElem?_getD, h4, List.getElem?_map]
    rw [List.getElem?_range (by omega)]
    rfl
  · simp only [CSR.stop, fill, List.getD_eq_getElem?_getD, h4, List.getElem?_map]
    rw [List.getElem?_range (by omega)]
    simp only [Option.map_some, Option.getD_some]
    exact take_succ_flatten aij i row hr
  · intro k hk
    have := flatten_get aij i k row hr hk
    simp only [CSR.column, CSR.value, fill, List.getD_eq_getElem?_getD, h2, h3, List.getElem?_map,
      this]
    exact ⟨rfl, rfl⟩
  · obtain ⟨d, hd, hs⟩ := h6 i row hr
    simp only [CSR.diagonal, fill, List.getD_eq_getElem?_getD, hd]
    exact hs

/-- The entries visited in row `i`. -/
theorem ptrs_map (m n : Nat) (aij : List (List (Trip K))) (i : Nat) (row : List (Trip K))
    (hr : aij[i]? = some row) :
    ((fill m n aij).ptrs i).map (fun p => ((fill m n aij).column p, (fill m n aij).value p))
      = row.map (fun t => (t.j, t.v)) := by
  obtain ⟨h1, h2, h3, _⟩ := fill_row m n aij i row hr
  unfold CSR.ptrs
  rw [h1, h2, Nat.add_sub_cancel_left]
  refine List.ext_getElem (by simp) fun k hk1 hk2 => ?_
  have hk : k < row.length := by simpa using hk2
  simp only [List.getElem_map, List.getElem_range', Nat.one_mul]
  rw [(h3 k hk).1, (h3 k hk).2]

theorem assembleRows_spec (srt : List (Trip K) → List (Trip K)) (n : Nat) (i0 : Nat)
    (rs : List (RowBuf K)) :
    (∀ aij, assembleRows srt n i0 rs = some aij →
      aij.length = rs.length ∧ ∀ k r, rs[k]? = some r → ∃ a, aij[k]? = some a ∧
        assembleRow srt n (i0 + k) r.slots = some a) ∧
    (assembleRows srt n i0 rs = none ↔ ∃ k r, rs[k]? = some r ∧
        assembleRow srt n (i0 + k) r.slots = none) := by
  induction rs generalizing i0 with
  | nil => simp [assembleRows]
  | cons r rs ih =>
    obtain ⟨ih1, ih2⟩ := ih (i0 + 1)
    cases h1 : assembleRow srt n i0 r.slots with
    | none =>
      refine ⟨fun aij h => by simp [assembleRows, h1] at h, ?_⟩
      simp only [assembleRows, h1, Option.bind_none, true_iff]
      exact ⟨0, r, by simp, by simpa using h1⟩
    | some a =>
      cases h2 : assembleRows srt n (i0 + 1) rs with
      | none =>
        refine ⟨fun aij h => by simp [assembleRows, h1, h2] at h, ?_⟩
        obtain ⟨k, r', hk, hn⟩ := ih2.1 h2
        simp only [assembleRows, h1, h2, Option.bind_some, Option.map_none, true_iff]
        exact ⟨k + 1, r', by simpa using hk, by rw [← hn]; congr 1; omega⟩
      | some as =>
        obtain ⟨l1, l2⟩ := ih1 as h2
        constructor
        · intro aij h
          simp only [assembleRows, h1, h2, Option.bind_some, Option.map_some, Option.some.injEq] at h
          subst h
          refine ⟨by simp [l1], fun k r' hk => ?_⟩
          cases k with
          | zero =>
            simp at hk
            subst hk
            exact ⟨a, by simp, by simpa using h1⟩
          | succ k =>
            obtain ⟨b, hb, hb2⟩ := l2 k r' (by simpa using hk)
            exact ⟨b, by simpa using hb, by rw [← hb2]; congr 1; omega⟩
        · simp only [assembleRows, h1, h2, Option.bind_some, Option.map_some]
          constructor
          · intro h
            simp at h
          · rintro ⟨k, r', hk, hn⟩
            cases k with
            | zero =>
              simp at hk
              subst hk
              simp only [Nat.add_zero] at hn
              rw [h1] at hn
              simp at hn
            | succ k =>
              have : assembleRows srt n (i0 + 1) rs = none := ih2.2 ⟨k, r', by simpa using hk, by
                rw [← hn]; congr 1; omega⟩
              rw [h2] at this
              simp at this

end Detran.Matrix
