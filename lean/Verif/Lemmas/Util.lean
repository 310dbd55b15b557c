import Verif.Model.Util

/-! Helper lemmas shared by several areas. -/

namespace Detran.Util

theorem SMap.find_set {V : Type} (m : SMap V) (k k' : String) (v : V) :
    (SMap.set m k v).find k' = if k = k' then some v else m.find k' := by
  induction m with
  | nil => simp [SMap.set, SMap.find]
  | cons a m ih =>
    obtain ⟨ka, va⟩ := a
    simp only [SMap.set]
    by_cases h : ka = k
    · subst h; simp only [if_true, SMap.find]; split <;> rfl
    · simp only [h, if_false, SMap.find, ih]
      by_cases h2 : ka = k'
      · subst h2; simp [Ne.symm h]
      · simp [h2]

end Detran.Util
