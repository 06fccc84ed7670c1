import Mathlib.Data.List.Dedup
import Verif.Model.Partition
import Verif.Model.Stability
import Verif.Model.Iterate

/-!
# Plotting (`utilities/plotting.py`)

Only what is handed to matplotlib is modelled: polygons, their colours or values, arrows and axis limits.  Line widths,
fonts and colour bars are not.
-/

namespace Verif

/-! ## Domains -/

/-- `if flip_axes: polyverts = [(x[1], x[0]) for x in polyverts]` (`/repo/utilities/plotting.py:91-92,145-146,189-190,
222-223`). -/
def flipAxes {R : Type} (flip : Bool) (poly : List (R × R)) : List (R × R) :=
  if flip then poly.map fun x => (x.2, x.1) else poly

/-- What `plot_2d_domains` draws: the polygons and their face colours (`/repo/utilities/plotting.py:121`); `none` is
Python's `None`. -/
structure DomainPlot (R C : Type) where
  patches : List (List (R × R))
  colours : List (Option C)
  deriving DecidableEq, Repr

/-- `available_colors = {cmap(cnorm(i)) for i in range(len(domains))}` (`/repo/utilities/plotting.py:96-98`): `palette n i`
is the colour of position `i` out of `n`. -/
def availableColours {C : Type} [DecidableEq C] (palette : Nat → Nat → C) (n : Nat) : List C :=
  ((List.range n).map (palette n)).dedup

/-- `vertex_to_neighbor_domain_indices` (`/repo/utilities/plotting.py:108-113`).  Simplification: the values are lists with
repetitions instead of sets; only membership in them is used. -/
def vertexDomains {V : Type} [DecidableEq V] (polys : List (List V)) : List (V × List Nat) :=
  (polys.zipIdx.flatMap fun pi => pi.1.map fun v => (v, pi.2)).foldl (fun d vi => dictAppend d vi.1 vi.2) []

/-- `neighbor_colors` (`/repo/utilities/plotting.py:116-119`): the colours, so far, of the domains that share a vertex with
the polygon (itself included); a missing key of the `defaultdict` is an empty set. -/
def neighbourColours {V C : Type} [DecidableEq V] (D : List (V × List Nat)) (colours : List (Option C)) (poly : List V) :
    List (Option C) :=
  (poly.flatMap fun v => (D.lookup v).getD []).map fun j => (colours[j]?).join

/-- `random.sample(l, 1)[0]`: an arbitrary element, determined by the random number `r`; `ValueError` when `l` is empty
(`/repo/utilities/plotting.py:119`). -/
def sampleOne {C : Type} (r : Nat) (l : List C) : Py C :=
  match l[r % l.length]? with
  | some c => .ok c
  | none => .error (.valueError "Sample larger than population or is negative")

/-- The loop of `/repo/utilities/plotting.py:115-119` over the polygons with their positions; `pick i` is the random number
drawn for the `i`-th one. -/
def greedyColours {V C : Type} [DecidableEq V] [LinearOrder C] (pick : Nat → Nat) (available : List C)
    (D : List (V × List Nat)) : List (List V × Nat) → List (Option C) → Py (List (Option C))
  | [], colours => .ok colours
  | (poly, i) :: rest, colours => do
    let c ← sampleOne (pick i)
      (pySortedBy id (available.filter fun c => decide (some c ∉ neighbourColours D colours poly)))
    greedyColours pick available D rest (colours.set i (some c))

/-- `plot_2d_domains` (`/repo/utilities/plotting.py:74-123`); `shuffle` is `random.shuffle` after `list(set)`.
Simplification: matplotlib's refusal of polygons without vertices is not modelled. -/
def plotDomains {R C M : Type} [DecidableEq R] [LinearOrder C] (palette : Nat → Nat → C) (shuffle : List C → List C)
    (pick : Nat → Nat) (flip : Bool) (domains : List (List (R × R) × List M)) : Py (DomainPlot R C) := do
  let patches := domains.map fun d => flipAxes flip d.1
  let available := availableColours palette domains.length
  if available.length = domains.length then return ⟨patches, (shuffle available).map some⟩
  else do
    let polys := domains.map Prod.fst
    let colours ← greedyColours pick available (vertexDomains polys) polys.zipIdx
      (List.replicate domains.length none)
    return ⟨patches, colours⟩

/-- An arrow: where it starts and where its head is. -/
structure Arrow where
  tail : Fl ℝ × Fl ℝ
  head : Fl ℝ × Fl ℝ

/-- Python's `max(a, b)` on floats: `a` unless `b > a`. -/
noncomputable def flMax (a b : Fl ℝ) : Fl ℝ := if Fl.lt a b then b else a
/-- Python's `min(a, b)` on floats: `a` unless `b < a`. -/
noncomputable def flMin (a b : Fl ℝ) : Fl ℝ := if Fl.lt b a then b else a

/-- The arrow of one domain, if any (`/repo/utilities/plotting.py:148-168`); `poly` is already flipped, the estimates are
`(gamma, omega)`. -/
noncomputable def estimateArrow (xlim ylim : ℝ × ℝ) (poly : List (ℝ × ℝ)) (γ ω : Option (Fl ℝ)) : Option Arrow :=
  let cx := npMean (poly.map Prod.fst)
  let cy := npMean (poly.map Prod.snd)
  match γ, ω with
  | some γ, some ω =>
    let width := xlim.2 - xlim.1
    if Fl.lt cx (.fin (xlim.1 - 5 / 100 * width)) || Fl.lt (.fin (xlim.2 + 5 / 100 * width)) cx then none
    else if Fl.le (.fin ylim.1) γ && Fl.le γ (.fin ylim.2) && Fl.le (.fin xlim.1) ω && Fl.le ω (.fin xlim.2) then
      some ⟨(flMin (.fin xlim.2) (flMax (.fin xlim.1) cx), flMin (.fin ylim.2) (flMax (.fin ylim.1) cy)), (ω, γ)⟩
    else none
  | _, _ => none

/-- A domain with estimates as `plot_2d_domains_with_…` take it: polygon, membership, gamma and omega estimate. -/
abbrev EstimatedDomain := List (ℝ × ℝ) × List Int × Option (Fl ℝ) × Option (Fl ℝ)

/-- What `plot_2d_domains_with_estimates` draws: the arrows, the estimate points, and the coloured domains. -/
structure EstimatePlot (C : Type) where
  arrows : List Arrow
  points : List (Fl ℝ × Fl ℝ)
  domains : DomainPlot ℝ C

open Classical in
/-- `plot_2d_domains_with_estimates` (`/repo/utilities/plotting.py:127-172`). -/
noncomputable def plotDomainsWithEstimates {C : Type} [LinearOrder C] (palette : Nat → Nat → C)
    (shuffle : List C → List C) (pick : Nat → Nat) (xlim ylim : ℝ × ℝ) (points flip : Bool)
    (domains : List EstimatedDomain) : Py (EstimatePlot C) := do
  if flip then do
    let arrows := domains.filterMap fun d => estimateArrow xlim ylim (flipAxes true d.1) d.2.2.1 d.2.2.2
    let plot ← plotDomains palette shuffle pick true (domains.map fun d => (d.1, d.2.1))
    return ⟨arrows, if points then arrows.map Arrow.head else [], plot⟩
  else .error .assertionError

open Classical in
/-- `any(xlim[0] <= x[0] <= xlim[1] and ylim[0] <= x[1] <= ylim[1] for x in polyverts)`
(`/repo/utilities/plotting.py:192,225`). -/
noncomputable def vertexInWindow (xlim ylim : ℝ × ℝ) (poly : List (ℝ × ℝ)) : Bool :=
  poly.any fun x => decide (xlim.1 ≤ x.1 ∧ x.1 ≤ xlim.2 ∧ ylim.1 ≤ x.2 ∧ x.2 ≤ ylim.2)

/-- The loops of `plot_2d_domains_with_num_communities` and `plot_2d_domains_with_ami`
(`/repo/utilities/plotting.py:188-195,221-228`): the polygons kept, each with its value. -/
noncomputable def visibleDomains {X : Type} (xlim ylim : ℝ × ℝ) (value : List Int → Py X) :
    List EstimatedDomain → Py (List (List (ℝ × ℝ) × X))
  | [] => .ok []
  | d :: ds => do
    let poly := flipAxes true d.1
    if vertexInWindow xlim ylim poly then do
      let x ← value d.2.1
      let rest ← visibleDomains xlim ylim value ds
      return (poly, x) :: rest
    else visibleDomains xlim ylim value ds

/-- `plot_2d_domains_with_num_communities` (`/repo/utilities/plotting.py:175-209`): the polygons, the array of values, and
the upper end of the colour bar's ticks. -/
noncomputable def plotNumCommunities (xlim ylim : ℝ × ℝ) (flip : Bool) (kMax : Option Nat)
    (domains : List EstimatedDomain) : Py (List (List (ℝ × ℝ)) × List Nat × Nat) := do
  if flip then do
    let vis ← visibleDomains xlim ylim numCommunities domains
    let ks := vis.map Prod.snd
    match kMax with
    | some K => return (vis.map Prod.fst, ks.map fun k => min k K, K)
    | none =>
      match ks.max? with
      | some K => return (vis.map Prod.fst, ks, K)
      | none => .error (.valueError "max() arg is an empty sequence")
  else .error .assertionError

/-- `plot_2d_domains_with_ami` (`/repo/utilities/plotting.py:212-239`): the polygons and the array of values; `ami` is
scikit-learn's score. -/
noncomputable def plotAmi (ami : List Int → List Int → Py ℝ) (truth : List Int) (xlim ylim : ℝ × ℝ) (flip : Bool)
    (domains : List EstimatedDomain) : Py (List (List (ℝ × ℝ)) × List ℝ) := do
  if flip then do
    let vis ← visibleDomains xlim ylim (fun c => ami c truth) domains
    return (vis.map Prod.fst, vis.map Prod.snd ++ [1])
  else .error .assertionError

/-! ## Estimates of single-layer partitions -/

/-- What `plot_estimates` draws: the ranges `(gamma_start, gamma_end)` at height `k`, dots, and arrows. -/
structure RangePlot where
  segments : List ((ℝ × ℝ) × Nat)
  dots : List (Fl ℝ × Nat)
  arrows : List Arrow

/-- `k_new`: the number of communities of the last range containing the estimate, 0 if there is none
(`/repo/utilities/plotting.py:43-46`); the entries carry their number of communities. -/
noncomputable def communitiesAt (g : Fl ℝ) (ranges : List ((ℝ × ℝ) × Nat)) : Nat :=
  ranges.foldl (fun k r => if Fl.le (.fin r.1.1) g && Fl.le g (.fin r.1.2) then r.2 else k) 0

/-- The head of the arrow (`/repo/utilities/plotting.py:51-64`). -/
noncomputable def arrowHead (xlim ylim : ℝ × ℝ) (g : Fl ℝ) (kNew : Nat) : Fl ℝ × Fl ℝ :=
  if (decide (kNew ≠ 0) && Fl.le (.fin xlim.1) g && Fl.le g (.fin xlim.2)) && Fl.le (.fin ylim.1) (.fin kNew) &&
      Fl.le (.fin kNew) (.fin ylim.2) then (g, .fin kNew)
  else
    (if Fl.lt (.fin xlim.2) g then .fin xlim.2 else if Fl.lt g (.fin xlim.1) then .fin xlim.1 else g,
     if decide (kNew = 0) || Fl.lt (.fin ylim.2) (.fin kNew) then .fin ylim.2
     else if Fl.lt (.fin kNew) (.fin ylim.1) then .fin ylim.1 else .fin kNew)

/-- `plot_estimates` (`/repo/utilities/plotting.py:19-71`); `limits` are the axis limits matplotlib answers after the ranges
have been drawn. -/
noncomputable def plotEstimates (limits : List ((ℝ × ℝ) × Nat) → (ℝ × ℝ) × (ℝ × ℝ))
    (ests : List (ℝ × ℝ × List Int × Option (Fl ℝ))) : Py RangePlot := do
  let ks ← ests.mapM fun e => numCommunities e.2.2.1
  let segments := (ests.zip ks).map fun ek => ((ek.1.1, ek.1.2.1), ek.2)
  let lim := limits segments
  let known := (ests.zip ks).filterMap fun ek => ek.1.2.2.2.map fun g => (ek, g)
  return ⟨segments,
    known.filterMap fun x => if communitiesAt x.2 segments ≠ 0 then some (x.2, communitiesAt x.2 segments) else none,
    known.map fun x => ⟨(.fin ((x.1.1.1 + x.1.1.2.1) / 2), .fin x.1.2),
      arrowHead lim.1 lim.2 x.2 (communitiesAt x.2 segments)⟩⟩

/-! ## Multiplex communities -/

/-- A sequence argument: a Python list or tuple, or a numpy array. -/
inductive PySeq where
  | builtin (l : List Nat)
  | array (l : List Nat)
  deriving DecidableEq, Repr

/-- The elements. -/
def PySeq.toList : PySeq → List Nat
  | .builtin l => l
  | .array l => l

/-- `column[:] = values` for an array column of `n` entries: numpy broadcasts a single value
(`/repo/utilities/plotting.py:255`). -/
def assignColumn (n : Nat) (values : List Nat) : Py (List Nat) :=
  if values.length = n then .ok values
  else match values with
    | [x] => .ok (List.replicate n x)
    | _ => .error (.valueError "could not broadcast input array")

/-- The column of one layer: `communities_per_layer[:, i] = membership[layer_vec == layer]`
(`/repo/utilities/plotting.py:255`).  `layer_vec == layer` is a mask for an array and `False`, that is index 0, for a list
or tuple; a tuple cannot be indexed with a mask; an array indexed with `False` is empty of shape `(0, n)`, which cannot be
assigned to a column. -/
def layerColumn (n : Nat) (membership layerVec : PySeq) (layer : Nat) : Py (List Nat) :=
  match membership, layerVec with
  | .builtin m, .builtin _ => do
    let x ← pyGet m 0
    return List.replicate n x
  | .builtin _, .array _ => .error .typeError
  | .array _, .builtin _ => .error (.valueError "could not broadcast input array")
  | .array m, .array lv =>
    if lv.length ≠ m.length then .error .indexError
    else assignColumn n ((m.zip lv).filterMap fun cl => if cl.2 = layer then some cl.1 else none)

/-- `plot_multiplex_community` (`/repo/utilities/plotting.py:243-261`): the columns of the array handed to `pcolormesh`. -/
def plotMultiplex (membership layerVec : PySeq) : Py (List (List Nat)) := do
  let T ← countLayers layerVec.toList
  let N := membership.toList.length / T
  (List.range T).mapM fun layer => layerColumn N membership layerVec layer

end Verif
