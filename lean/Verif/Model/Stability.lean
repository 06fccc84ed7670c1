import Verif.Model.Estimation
import Verif.Model.Champ

/-!
# Stability tests (`utilities/parameter_estimation_utilities.py:369-476`)
-/

namespace Verif

/-- IEEE multiplication. -/
noncomputable def Fl.mul : Fl ℝ → Fl ℝ → Fl ℝ
  | .fin x, .fin y => .fin (x * y)
  | .nan, _ => .nan
  | _, .nan => .nan
  | .fin x, .pinf => if 0 < x then .pinf else if x < 0 then .ninf else .nan
  | .fin x, .ninf => if 0 < x then .ninf else if x < 0 then .pinf else .nan
  | .pinf, .fin y => if 0 < y then .pinf else if y < 0 then .ninf else .nan
  | .ninf, .fin y => if 0 < y then .ninf else if y < 0 then .pinf else .nan
  | .pinf, .pinf => .pinf
  | .ninf, .ninf => .pinf
  | .pinf, .ninf => .ninf
  | .ninf, .pinf => .ninf

/-- IEEE `x <= y`: false when a NaN is involved. -/
noncomputable def Fl.le : Fl ℝ → Fl ℝ → Bool
  | .fin x, .fin y => decide (x ≤ y)
  | .nan, _ => false
  | _, .nan => false
  | .ninf, _ => true
  | _, .pinf => true
  | .pinf, _ => false
  | _, .ninf => false

/-- `gamma_estimates_to_stable_partitions` (`/repo/utilities/parameter_estimation_utilities.py:385-399`); an entry is
`(gamma_start, gamma_end, membership, gamma_estimate)`, `none` is `None`. -/
noncomputable def stablePartitions2D {α : Type} (ests : List (ℝ × ℝ × List α × Option (Fl ℝ))) : List (List α) :=
  (ests.filter fun e =>
    match e.2.2.2 with
    | none => false
    | some g => Fl.le (.fin e.1) g && Fl.le g (.fin e.2.1)).map fun e => e.2.2.1

/-- `left_or_right` (`/repo/utilities/parameter_estimation_utilities.py:445-447`). -/
noncomputable def leftOrRight (p₁ p₂ : ℝ × ℝ) (x y : Fl ℝ) : Bool :=
  Fl.le (.fin 0) (Fl.sub (Fl.mul (Fl.sub x (.fin p₁.1)) (.fin (p₂.2 - p₁.2)))
    (Fl.mul (Fl.sub y (.fin p₁.2)) (.fin (p₂.1 - p₁.1))))

/-- `np.mean` of a list of floats: NaN when empty (`/repo/utilities/parameter_estimation_utilities.py:456-457`). -/
noncomputable def npMean (l : List ℝ) : Fl ℝ := npDiv l.sum (l.length : ℝ)

/-- `polygon_edges` (`/repo/utilities/parameter_estimation_utilities.py:456-463`): the cyclic edges, turned so that the
centroid is on a fixed side. -/
noncomputable def polygonEdges (poly : List (ℝ × ℝ)) : List ((ℝ × ℝ) × (ℝ × ℝ)) :=
  let cx := npMean (poly.map Prod.fst)
  let cy := npMean (poly.map Prod.snd)
  (List.range poly.length).filterMap fun i =>
    match poly[i]?, poly[(i + 1) % poly.length]? with
    | some p₁, some p₂ => some (if leftOrRight p₁ p₂ cx cy then (p₂, p₁) else (p₁, p₂))
    | _, _ => none

/-- The test on one domain (`/repo/utilities/parameter_estimation_utilities.py:465-470`). -/
noncomputable def sameSideOfAllEdges (poly : List (ℝ × ℝ)) (g o : Fl ℝ) : Bool :=
  let sides := (polygonEdges poly).map fun e => leftOrRight e.1 e.2 g o
  (sides.all fun x => x) || (sides.all fun x => !x)

/-- A domain with its estimates: `(domain_vertices, membership, gamma_estimate, omega_estimate)`. -/
abbrev DomainEstimate (α : Type) := List (ℝ × ℝ) × List α × Option (Fl ℝ) × Option (Fl ℝ)

/-- `gamma_omega_estimates_to_stable_partitions` (`/repo/utilities/parameter_estimation_utilities.py:431-476`) with
`return_membership_only=False`: the kept entries. -/
noncomputable def stableDomains {α : Type} (doms : List (DomainEstimate α)) : List (DomainEstimate α) :=
  doms.filter fun d =>
    match d.2.2.1, d.2.2.2 with
    | some g, some o => sameSideOfAllEdges d.1 g o
    | _, _ => false

/-- … with `return_membership_only=True` (`/repo/utilities/parameter_estimation_utilities.py:471-474`). -/
noncomputable def stablePartitions3D {α : Type} (doms : List (DomainEstimate α)) : List (List α) :=
  (stableDomains doms).map fun d => d.2.1

end Verif
