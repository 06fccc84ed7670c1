import Mathlib.Data.Real.Basic
import Verif.Model.Plotting

/-!
# Vocabulary for the plotting properties
-/

namespace Verif.Spec
open Verif

/-- The vertices of layer `t` in increasing order. -/
def layerVertices (layerVec : List Nat) (t : Nat) : List Nat :=
  (List.range layerVec.length).filter fun v => decide (layerVec[v]? = some t)

/-- The float is a number between `a` and `b`. -/
def InRange (a b : ℝ) (x : Fl ℝ) : Prop := ∃ y, x = .fin y ∧ a ≤ y ∧ y ≤ b

/-- The number of `[a, b]` closest to the float: the float itself if it is in there, else the nearer end (infinities
included). -/
def IsClamp (a b : ℝ) (x : Fl ℝ) (y : ℝ) : Prop :=
  match x with
  | .fin x => y = max a (min b x)
  | .pinf => y = b
  | .ninf => y = a
  | .nan => False

/-- The arrow a domain with vertices `poly` in the `(gamma, omega)` plane and the given estimates is to get in the window
`xlim` (omega) times `ylim` (gamma): both estimates are given and inside the window, the centroid is horizontally at most 5%
of the width outside; the arrow leads from the centroid, moved into the window, to the estimates. -/
def ArrowOf (xlim ylim : ℝ × ℝ) (poly : List (ℝ × ℝ)) (γ ω : Option (Fl ℝ)) (a : Arrow) : Prop :=
  ∃ g w : ℝ, γ = some (.fin g) ∧ ω = some (.fin w) ∧ (ylim.1 ≤ g ∧ g ≤ ylim.2) ∧ (xlim.1 ≤ w ∧ w ≤ xlim.2) ∧
    (xlim.1 - 5 / 100 * (xlim.2 - xlim.1) ≤ (poly.map Prod.snd).sum / poly.length ∧
      (poly.map Prod.snd).sum / poly.length ≤ xlim.2 + 5 / 100 * (xlim.2 - xlim.1)) ∧
    a.tail = (.fin (min xlim.2 (max xlim.1 ((poly.map Prod.snd).sum / poly.length))),
      .fin (min ylim.2 (max ylim.1 ((poly.map Prod.fst).sum / poly.length)))) ∧
    a.head = (.fin w, .fin g)

/-- A vertex `(gamma, omega)` of the polygon lies in the window `xlim` (omega) times `ylim` (gamma). -/
def HasVertexIn (xlim ylim : ℝ × ℝ) (poly : List (ℝ × ℝ)) : Prop :=
  ∃ q ∈ poly, (ylim.1 ≤ q.1 ∧ q.1 ≤ ylim.2) ∧ xlim.1 ≤ q.2 ∧ q.2 ≤ xlim.2

end Verif.Spec
