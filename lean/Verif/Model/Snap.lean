import Verif.Model.Estimation
import Verif.Model.Partition

/-!
# Largest and mean gamma estimates, and the estimates of the SNAP networks (`experiments/social_networks`)
-/

namespace Verif

/-- `np.linspace(a, b, n)` (numpy): `n` evenly spaced numbers from `a` to `b`.  Exact arithmetic. -/
noncomputable def linspace (a b : ℝ) (n : Nat) : List ℝ := (List.range n).map fun (i : Nat) => a + i * ((b - a) / ((n : ℝ) - 1))

/-- The loop over `omega_out` in `gamma_maxmean` (`/repo/experiments/social_networks/SNAP_boxplot.py:122-130`), on the state
`(total, count, max_gamma)`.  Simplification: an infinite estimate would count as none; it does not occur (C27: the value
is `None`, NaN or a number). -/
noncomputable def maxmeanInner (K : Nat) (omegaIn : ℝ) : List ℝ → ℝ × Nat × ℝ → ℝ × Nat × ℝ
  | [], s => s
  | omegaOut :: l, s =>
    if (K : ℝ) < omegaIn + ((K : ℝ) - 1) * omegaOut then s
    else match gammaFromParameters omegaIn omegaOut with
      | some (.fin g) => maxmeanInner K omegaIn l (s.1 + g, s.2.1 + 1, max s.2.2 g)
      | _ => maxmeanInner K omegaIn l s

/-- `gamma_maxmean(K, points)` (`/repo/experiments/social_networks/SNAP_boxplot.py:116-132`): the pair of mean and
maximum. -/
noncomputable def gammaMaxmean (K points : Nat) : Py (ℝ × ℝ) := do
  let top ← pyDiv (K : ℝ) ((K : ℝ) - 1)
  let s := (linspace 1 K points).foldl (fun s omegaIn => maxmeanInner K omegaIn (linspace 0 top points) s) (0, 0, 0)
  let mean ← pyDiv s.1 (s.2.1 : ℝ)
  return (mean, s.2.2)

/-- `K_MAX` (`/repo/experiments/social_networks/SNAP_boxplot.py:17`). -/
def snapKMax : Nat := 71

/-- `find_maximum_gammas` (`/repo/experiments/social_networks/SNAP_boxplot.py:134-142`): `(gamma_means, gamma_maxs)`. -/
noncomputable def findMaximumGammas : Py (List ℝ × List ℝ) := do
  let rs ← (List.range' 2 (snapKMax - 2)).mapM fun k => gammaMaxmean k 1000
  return ([0, 0] ++ rs.map Prod.fst, [0, 0] ++ rs.map Prod.snd)

/-- `est_maxs = est_maxs[2:]; assert abs(est_maxs[0] - 1.0) < 1e-4`
(`/repo/experiments/social_networks/SNAP_boxplot.py:163-164`). -/
noncomputable def checkMaximum (estMaxs : List ℝ) : Py Unit := do
  let x ← pyGet (estMaxs.drop 2) 0
  if |x - 1| < 1 / 10000 then .ok () else .error .assertionError

/-- Python's `x < 15` for a float. -/
noncomputable def below15 : Fl ℝ → Bool
  | .fin g => decide (g < 15)
  | .ninf => true
  | _ => false

/-- The loop over the partitions of one graph in `generate_boxplot_results`
(`/repo/experiments/social_networks/SNAP_boxplot.py:148-154`); the graph object keeps the weights that `gamma_estimate`
gives it. -/
noncomputable def boxplotGraph (test : Graph ℝ → Bool) : Graph ℝ → List (List Nat) → Py (List (Nat × Fl ℝ))
  | _, [] => .ok []
  | G, p :: ps => do
    let K ← numCommunities (p.map Int.ofNat)
    let (est, G) ← gammaEstimate test G p
    match est with
    | some g =>
      if 2 ≤ K ∧ K < snapKMax then
        if below15 g then do
          let rest ← boxplotGraph test G ps
          return (K, g) :: rest
        else .error .assertionError
      else boxplotGraph test G ps
    | none => boxplotGraph test G ps

/-- `generate_boxplot_results` (`/repo/experiments/social_networks/SNAP_boxplot.py:145-156`), `Gs` with the partitions
loaded from `parts{i}.p`; the result is what is dumped.  Simplification: a Python set of partitions is given as the list
in its iteration order. -/
noncomputable def boxplotResults (test : Graph ℝ → Bool) (Gs : List (Graph ℝ × List (List Nat))) :
    Py (List (Nat × Fl ℝ)) := do
  let rs ← Gs.mapM fun x => boxplotGraph test x.1 x.2
  return rs.flatten

/-- `[x[1] for x in boxplot_results if x[0] == K]` (`/repo/experiments/social_networks/SNAP_boxplot.py:168-170`). -/
def boxplotColumn (results : List (Nat × Fl ℝ)) (K : Nat) : List (Fl ℝ) :=
  (results.filter fun x => x.1 = K).map Prod.snd

end Verif
