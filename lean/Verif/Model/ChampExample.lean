import Verif.Model.Champ
import Verif.Model.Snap

/-!
# Figure 3.1, the worked example of CHAMP (`experiments/example_figures/plot_champ_example.py`)

Only the data handed to matplotlib is modelled; colours, labels and the file are not.  The graph is Zachary's karate club in the script
and arbitrary here; the division by `2 * G.ecount()` (78 edges there) is not checked for zero.
-/

namespace Verif

/-- `SAMPLE_GAMMAS` (`/repo/experiments/example_figures/plot_champ_example.py:9`). -/
noncomputable def sampleGammas : List ℝ := [0.5, 1.0, 1.5, 2.0]

/-- `PLOT_XLIM[0]` (`/repo/experiments/example_figures/plot_champ_example.py:10`). -/
noncomputable def plotLo : ℝ := 0.25
/-- `PLOT_XLIM[1]` (`/repo/experiments/example_figures/plot_champ_example.py:10`). -/
noncomputable def plotHi : ℝ := 2.25

/-- `PLOT_XS` (`/repo/experiments/example_figures/plot_champ_example.py:12`). -/
noncomputable def plotXs : List ℝ := linspace plotLo plotHi 10

/-- A louvain partition object: the resolution it was made with and its membership. -/
structure LouvainPart where
  /-- its `resolution_parameter` -/
  res : ℝ
  /-- `p.membership` -/
  mem : List Nat

/-- `max(l, key=key)`: the first of the largest (`/repo/experiments/example_figures/plot_champ_example.py:26`). -/
noncomputable def pyMaxKey {β : Type} (key : β → ℝ) : List β → Py β
  | [] => .error (.valueError "max() arg is an empty sequence")
  | x :: xs => .ok (xs.foldl (fun b y => if key b < key y then y else b) x)

/-- `min(l, key=key)`: the first of the smallest (`/repo/experiments/example_figures/plot_champ_example.py:24`). -/
noncomputable def pyMinKey {β : Type} (key : β → ℝ) : List β → Py β
  | [] => .error (.valueError "min() arg is an empty sequence")
  | x :: xs => .ok (xs.foldl (fun b y => if key y < key b then y else b) x)

/-- `sample_partitions` (`/repo/experiments/example_figures/plot_champ_example.py:15-28`) with `runs` (`10 ** 4`) calls per resolution;
`find γ k` is the membership of the `k`-th call of `louvain.find_partition` at `γ`, `q c γ` is `p.quality()` of a partition with
membership `c` and resolution `γ`. -/
noncomputable def samplePartitions (q : List Nat → ℝ → ℝ) (find : ℝ → Nat → List Nat) (runs : Nat) : Py (List LouvainPart) :=
  sampleGammas.mapM fun γ =>
    let sampled := (List.range runs).map fun k => (⟨γ, find γ k⟩ : LouvainPart)
    if γ = 1.0 then pyMinKey (fun p => q p.mem p.res) sampled
    else pyMaxKey (fun p => q p.mem p.res) sampled

/-- The scatter of `plot_left_panel` and `plot_center_panel` (`/repo/experiments/example_figures/plot_champ_example.py:36,50`): abscissas
and ordinates. -/
noncomputable def scatterPanel (q : List Nat → ℝ → ℝ) (G : Graph ℝ) (parts : List LouvainPart) : List ℝ × List ℝ :=
  let twom : ℝ := 2 * G.ecount
  (sampleGammas, parts.map fun p => q p.mem p.res / twom)

/-- The lines of `plot_center_panel` (`/repo/experiments/example_figures/plot_champ_example.py:51-52`). -/
noncomputable def centerLines (q : List Nat → ℝ → ℝ) (G : Graph ℝ) (parts : List LouvainPart) : List (List ℝ × List ℝ) :=
  let twom : ℝ := 2 * G.ecount
  parts.map fun p => (plotXs, plotXs.map fun g => q p.mem g / twom)

/-- What `plot_right_panel` draws: the segments, the projections (abscissas and the common height of the band) and the vertical lines
(abscissa, `ymax` as a fraction of the axis). -/
structure RightPanel where
  /-- `ax.plot(xs, ys)` -/
  segments : List (List ℝ × List ℝ)
  /-- `ax.fill_between(xs, 0, 0.01)` -/
  bands : List (List ℝ)
  /-- `ax.axvline(x, ymin=0, ymax=y)` -/
  vlines : List (ℝ × ℝ)

/-- `plot_right_panel` (`/repo/experiments/example_figures/plot_champ_example.py:59-86`). -/
noncomputable def plotRightPanel (env : ChampEnv) (q : List Nat → ℝ → ℝ) (G : Graph ℝ) (parts : List LouvainPart) : Run RightPanel := do
  let twom : ℝ := 2 * G.ecount
  let domains ← champ2D env G (parts.map fun p => p.mem) plotLo plotHi false
  let d0 ← Run.ofPy (pyGet domains 0)
  let d1 ← Run.ofPy (pyGet domains 1)
  let d2 ← Run.ofPy (pyGet domains 2)
  let p0 ← Run.ofPy (pyGet parts 0)
  let p2 ← Run.ofPy (pyGet parts 2)
  let p3 ← Run.ofPy (pyGet parts 3)
  let y0 := [q p0.mem d0.1 / twom, q p0.mem d0.2.1 / twom]
  let y2 := [q p2.mem d1.1 / twom, q p2.mem d1.2.1 / twom]
  let y3 := [q p3.mem d2.1 / twom, q p3.mem d2.2.1 / twom]
  return { segments := [([d0.1, d0.2.1], y0), ([d1.1, d1.2.1], y2), ([d2.1, d2.2.1], y3)]
           bands := [[d0.1, d0.2.1], [d1.1, d1.2.1], [d2.1, d2.2.1]]
           vlines := [(d0.2.1, (y0.getLastD 0) / 0.8), (d1.2.1, (y2.getLastD 0) / 0.8)] }

end Verif
