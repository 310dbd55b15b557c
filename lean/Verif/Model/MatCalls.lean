import Verif.Model.Material

/-!
# Every call on a material

`Detran.Material.Op` (Model/Material.lean) holds the single-value setters of the data the
scatter bounds and sources depend on.  Here the remaining public calls of `Material` are
added: the absorption and diffusion setters, the vectorised setters and the two helpers.
-/

namespace Detran.Material

variable {K : Type} [Field K] [LinearOrder K]

/-- The tables of a material indexed by group and material. -/
inductive Tab where
  | sigT | sigA | nuSigF | sigF | nu | chi | diff
  deriving DecidableEq

/-- The calls of Material.hh:79-104, 180, 192, 195.  `one t m g v` is the single-value setter
    of table `t`, `vec t m v` the vectorised one, `scat`/`scats` those of the scatter table. -/
inductive Call (K : Type) where
  | one (t : Tab) (m g : Nat) (v : K)
  | vec (t : Tab) (m : Nat) (v : List K)
  | scat (m g gp : Nat) (v : K)
  | scats (m g : Nat) (v : List K)
  | down (v tran : Bool)
  | absorb
  | diffuse
  | finalize

/-- Accessors `sigma_t(m, g)` … `diff_coef(m, g)`, Material.i.hh:18-80. -/
def Mat.get (x : Mat K) : Tab → Nat → Nat → K
  | .sigT, m, g => x.sigT g m
  | .sigA, m, g => x.sigA g m
  | .nuSigF, m, g => x.nuSigF g m
  | .sigF, m, g => x.sigF g m
  | .nu, m, g => x.nu g m
  | .chi, m, g => x.chi g m
  | .diff, m, g => x.diff g m

/-- Vectorised accessors, Material.i.hh:88-145, 159-166: the entries of groups 0, …, G-1. -/
def Mat.getVec (x : Mat K) (t : Tab) (m : Nat) : List K :=
  (List.range x.G).map (fun g => x.get t m g)

/-- `sigma_s(m)`, Material.i.hh:148-156. -/
def Mat.getScats (x : Mat K) (m : Nat) : List (List K) :=
  (List.range x.G).map (fun g => (List.range x.G).map (fun gp => x.sigS g gp m))

/-- Single-value setters, Material.cc:58-109, 123-129. -/
def Mat.put (x : Mat K) (t : Tab) (m g : Nat) (v : K) : Mat K :=
  match t with
  | .sigT => { x with sigT := set2 x.sigT g m v }
  | .sigA => { x with sigA := set2 x.sigA g m v }
  | .nuSigF => { x with nuSigF := set2 x.nuSigF g m v }
  | .sigF => { x with sigF := set2 x.sigF g m v }
  | .nu => { x with nu := set2 x.nu g m v }
  | .chi => { x with chi := set2 x.chi g m v }
  | .diff => { x with diff := set2 x.diff g m v }

/-- Vectorised setters, Material.cc:134-185, 198-204: the loop over `g < number_groups`
    storing `v[g]`.  `none`: `v` is shorter than the number of groups and the loop reads past
    its end (line 137 and its likes are `Require`, absent in release). -/
def Mat.putVec (x : Mat K) (t : Tab) (m : Nat) (v : List K) : Option (Mat K) :=
  (List.range x.G).foldlM (fun y g => (v[g]?).map (fun a => y.put t m g a)) x

/-- `set_sigma_s(m, g, v)`, Material.cc:188-195. -/
def Mat.putScats (x : Mat K) (m g : Nat) (v : List K) : Option (Mat K) :=
  (List.range x.G).foldlM
    (fun y gp => (v[gp]?).map (fun a => { y with sigS := set3 y.sigS g gp m a })) x

/-- Effect of one call.  `none` is undefined behaviour: a group or material index out of
    range (the checks are `Require`, absent in release) or a vector too short. -/
def Mat.call (x : Mat K) : Call K → Option (Mat K)
  | .one t m g v => if m < x.M ∧ g < x.G then some (x.put t m g v) else none
  | .vec t m v => if m < x.M then x.putVec t m v else none
  | .scat m g gp v =>
    if m < x.M ∧ g < x.G ∧ gp < x.G then some { x with sigS := set3 x.sigS g gp m v } else none
  | .scats m g v => if m < x.M ∧ g < x.G then x.putScats m g v else none
  | .down v tran => some (x.setDownscatter v tran)
  | .absorb => some x.computeSigmaA
  | .diffuse => some x.computeDiffCoef
  | .finalize => some x.finalize

/-- A history of calls. -/
def Mat.calls (x : Mat K) (h : List (Call K)) : Option (Mat K) := h.foldlM Mat.call x

end Detran.Material
