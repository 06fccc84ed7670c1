import Mathlib.Data.Real.Basic
import Mathlib.Algebra.Order.Floor.Semiring
import Mathlib.Algebra.Order.Archimedean.Real.Basic
import Verif.Model.Base

/-!
# The plots of the LFR benchmark (`experiments/lfr_benchmark_test/lfr_benchmark_test.py:235-271`)

Only the numbers handed to matplotlib are modelled, in exact arithmetic.
-/

namespace Verif

/-- NumPy's sorted copy of the data. -/
noncomputable def npSort (data : List ℝ) : List ℝ := data.mergeSort fun a b => decide (a ≤ b)

/-- `np.median(data)` for data that is not empty: the mean of the middle element or elements
(`/repo/experiments/lfr_benchmark_test/lfr_benchmark_test.py:259-261`). -/
noncomputable def npMedian (data : List ℝ) : ℝ :=
  let s := npSort data
  let n := data.length
  if n % 2 = 1 then s.getD (n / 2) 0 else (s.getD (n / 2 - 1) 0 + s.getD (n / 2) 0) / 2

/-- `np.percentile(data, q)` for data that is not empty: linear interpolation at the position `(n - 1) q / 100` of the sorted
data (`/repo/experiments/lfr_benchmark_test/lfr_benchmark_test.py:260-261`). -/
noncomputable def npPercentile (data : List ℝ) (q : ℝ) : ℝ :=
  let s := npSort data
  let n := data.length
  let pos := ((n - 1 : Nat) : ℝ) * (q / 100)
  let previous := ⌊pos⌋₊
  let next := min (previous + 1) (n - 1)
  s.getD previous 0 + (s.getD next 0 - s.getD previous 0) * (pos - previous)

/-- One panel: the points of `ax.errorbar` and the points of `ax.plot`. -/
structure Panel where
  mus : List ℝ
  medians : List ℝ
  yerrs : List (ℝ × ℝ)
  keys : List ℝ
  fractions : List ℝ

/-- The loop over `data_dict.items()` (`/repo/experiments/lfr_benchmark_test/lfr_benchmark_test.py:240-261`). -/
noncomputable def panelLoop : List (ℝ × List (List ℝ)) → Panel → Py Panel
  | [], p => .ok p
  | (mu, dataLists) :: items, p => do
    let data := dataLists.foldl (fun data l => data ++ l) []
    let nonzero := dataLists.foldl (fun k l => if l.length > 0 then k + 1 else k) 0
    if dataLists.length = 0 then .error .zeroDivisionError
    else
      let p := { p with fractions := p.fractions ++ [((nonzero : Nat) : ℝ) / (dataLists.length : ℝ)] }
      if data.length > 0 then
        panelLoop items { p with
          mus := p.mus ++ [mu], medians := p.medians ++ [npMedian data],
          yerrs := p.yerrs ++ [(npMedian data - npPercentile data 25, npPercentile data 75 - npMedian data)] }
      else panelLoop items p

/-- One panel of the figure (`/repo/experiments/lfr_benchmark_test/lfr_benchmark_test.py:240-271`); the points of `ax.plot` are
drawn for the two panels about pruning only. -/
noncomputable def lfrPanel (dict : List (ℝ × List (List ℝ))) : Py Panel :=
  panelLoop dict ⟨[], [], [], dict.map Prod.fst, []⟩

/-- `axs[1 - ax_idx % 2][ax_idx // 2]` (`/repo/experiments/lfr_benchmark_test/lfr_benchmark_test.py:265`). -/
def panelPosition (idx : Nat) : Int × Nat := (1 - (idx % 2 : Nat), idx / 2)

end Verif
