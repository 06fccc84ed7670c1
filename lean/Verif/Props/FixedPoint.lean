import Verif.Props.IterateMulti
import Verif.Props.Prune3D
import Verif.Props.Invariance
import Verif.Props.Objective
import Verif.Props.History

/-!
# C78: iterative estimation and pruning find the same partitions

`BestAmong`: the community detection behaves ideally with respect to a collection of partitions (for instance all
partitions of the vertices): what it returns at a resolution has at least the modularity of every partition of the
collection.
-/

set_option linter.unusedSectionVars false

namespace Verif.Props
open Verif Verif.Spec

variable {env : LeidenEnv} {G : Graph ℝ} {method : String} {α : Type} [LinearOrder α]

/-- At every real resolution the community detection returns a partition at least as good as every candidate. -/
def BestAmong (env : LeidenEnv) (method : String) (G : Graph ℝ) (cand : List α → Prop) : Prop :=
  ∀ i γ c, maximiser env method G i (.fin γ) = .ok c → ∀ q, cand q → modularity G γ q ≤ modularity G γ c

theorem modularity_weightless {G : Graph ℝ} (w : Option (List ℝ)) (γ : ℝ) {α : Type} [DecidableEq α] (c : List α) :
    modularity { G with weight := w } γ c = modularity G γ c := rfl

theorem modularity_defaulted (test : Graph ℝ → Bool) (γ : ℝ) {α : Type} [DecidableEq α] (c : List α) :
    modularity (defaulted test G) γ c = modularity G γ c := by
  unfold defaulted
  split
  · rfl
  · exact modularity_weightless _ _ _

/-- **C78 (near-optimality).** A call that stops before its iteration limit with a real gamma returns a partition that is
nearly optimal at the returned gamma: no candidate has a modularity larger by `tol` times the total of the adjacency
matrix (that is, by `tol` in normalised modularity). -/
theorem c78_near_optimal (hp : ProducesPartitions env) (hG : G.WF) (hs : SaneTest env.test G) (hm : Supported method)
    {cand : List α → Prop} (hbest : BestAmong env method (defaulted env.test G) cand) {γ tol : ℝ} {n : Nat}
    {verbose : Bool} {w w' : World} {γout : ℝ} {c : List Nat} {Gout : Graph ℝ}
    (h : iterateMono env G γ tol n verbose method w = (.ok (.fin γout, some c, Gout), w'))
    (hn : w'.calls < w.calls + n) {q : List α} (hq : cand q) :
    modularity G γout q ≤ modularity G γout c + tol * total G := by
  have hpos : 0 < n := by
    rcases n.eq_zero_or_pos with rfl | hpos
    · obtain ⟨-, h1, h2⟩ := c46_verbose hp hG hs hm γ tol 0 w
      cases verbose
      · rw [h1] at h; cases h
      · rw [h2] at h; cases h
    · exact hpos
  obtain ⟨hGo, -, c', γ', hc, -, hmx, hw⟩ := c46_returns_estimate_of_partition hp hG hs hm hpos h
  cases hc
  obtain ⟨x, y, hx, rfl, hxy⟩ := hw hn
  cases hx
  rw [hGo] at hmx
  have hb := hbest _ _ _ hmx q hq
  rw [modularity_defaulted, modularity_defaulted] at hb
  rw [modularity_affine, modularity_affine] at hb ⊢
  have h1 := withinNull_nonneg G q
  have h2 := withinNull_le G q
  have h3 := withinNull_nonneg G c
  have h4 := withinNull_le G c
  have h5 : |withinNull G c - withinNull G q| ≤ (total G : ℝ) := by
    rw [abs_le]; constructor <;> linarith
  have h6 : (γout - y) * (withinNull G c - withinNull G q) ≤ tol * total G := by
    refine (le_abs_self _).trans ?_
    rw [abs_mul]
    exact mul_le_mul hxy.le h5 (abs_nonneg _) ((abs_nonneg _).trans hxy.le)
  linarith

theorem contiguous_dedup {c : List Nat} {K : Nat} (h : Contiguous c K) : c.dedup.length = K := by
  have hp : c.dedup.Perm (List.range K) := by
    rw [List.perm_ext_iff_of_nodup (List.nodup_dedup _) List.nodup_range]
    intro k
    rw [List.mem_dedup, List.mem_range]
    exact h k
  rw [hp.length_eq, List.length_range]

/-- the estimate of a membership with labels `0..K-1` is that of its canonical form -/
theorem estimate_of_hasEstimate {test : Graph ℝ → Bool} (hG : G.WF) {c : List Nat} (hc : c.length = G.vcount) {K : Nat}
    (hK : Contiguous c K) {g : ℝ} (h : HasEstimate test G c g) : ∃ G', gammaEstimate test G c = .ok (some (.fin g), G') := by
  obtain ⟨c', G', h1, h2⟩ := h
  rw [sortedTuple_eq] at h1
  cases h1
  refine ⟨G', ?_⟩
  have hK' : Contiguous (canon c) K := by
    have := canon_mem_iff c
    rw [contiguous_dedup hK] at this
    exact this
  rw [c72_gamma_estimate test hG hc (canon_same c).symm hK hK']
  exact h2

theorem hasEstimate_defaulted (hG : G.WF) (hd : G.directed = false) (he : 0 < G.ecount) {test : Graph ℝ → Bool}
    (hw : CountsAsUnweighted test G) {p : List α} (hp : p.length = G.vcount) {γ : ℝ} :
    HasEstimate test (defaulted test G) p γ ↔ HasEstimate test G p γ := by
  by_cases ht : test G = true
  · unfold defaulted; rw [if_pos ht]
  · have hdef : defaulted test G = { G with weight := some (List.replicate G.ecount 1) } := by
      unfold defaulted; rw [if_neg ht]
    rw [hdef]
    have hwf : ({ G with weight := some (List.replicate G.ecount 1) } : Graph ℝ).WF :=
      ⟨hG.1, fun ws h => by cases h; simp [Graph.ecount]⟩
    have hcu : CountsAsUnweighted test { G with weight := some (List.replicate G.ecount 1) } := fun _ => rfl
    rw [hasEstimate_unweighted (G := { G with weight := some (List.replicate G.ecount 1) }) hwf hd he hcu hp,
      hasEstimate_unweighted hG hd he hw hp]
    exact Iff.rfl

/-- **C78 (stable partitions are fixed points).** Unweighted undirected graph.  `p` has gamma estimate `g` and is, at `g`,
strictly better than every candidate of different modularity (so that pruning the candidates keeps it); the community
detection returns at `g` a candidate, up to labels `0..K-1`, as good as any.  Then the iteration started at `g` stops after
one maximisation, with gamma `g` and a partition of the same modularity as `p`. -/
theorem c78_stable_is_fixed (hp : ProducesPartitions env) (hG : G.WF) (hs : SaneTest env.test G) (hm : Supported method)
    (hd : G.directed = false) (he : 0 < G.ecount) (hw : CountsAsUnweighted env.test G) {cand : List α → Prop}
    (hbest : BestAmong env method (defaulted env.test G) cand) {p : List α} (hpc : cand p) (hpl : p.length = G.vcount)
    {g : ℝ} (hg : HasEstimate env.test G p g)
    (hstrict : ∀ q, cand q → ¬ SameModularity G q p → modularity G g q < modularity G g p) {tol : ℝ} (htol : 0 < tol)
    {n : Nat} (hn : 0 < n) (w : World)
    (hfind : ∃ c, maximiser env method (defaulted env.test G) w.calls (.fin g) = .ok c ∧ c.length = G.vcount ∧
      (∃ K, Contiguous c K) ∧ ∃ q, cand q ∧ SamePartition q c) :
    ∃ c w', iterateMono env G g tol n false method w = (.ok (.fin g, some c, defaulted env.test G), w') ∧
      w'.calls = w.calls + 1 ∧ SameModularity G c p := by
  obtain ⟨c, hc, hcl, ⟨K, hK⟩, q, hq, hqc⟩ := hfind
  have hsame : SameModularity G c p := by
    by_contra hne
    have h1 := hbest _ _ _ hc p hpc
    rw [modularity_defaulted, modularity_defaulted] at h1
    have hmq : ∀ γ, modularity G γ q = modularity G γ c := modularity_same hqc (hqc.1.trans hcl)
    have h2 := hstrict q hq (fun h => hne fun γ => by rw [← hmq, h γ])
    rw [hmq] at h2
    exact absurd h1 (not_le.mpr h2)
  have hdw : (defaulted env.test G).WF := defaulted_wf hG
  have hdv : (defaulted env.test G).vcount = G.vcount := by unfold defaulted; split <;> rfl
  have hest : ∃ G', gammaEstimate env.test (defaulted env.test G) c = .ok (some (.fin g), G') := by
    refine estimate_of_hasEstimate hdw (hcl.trans hdv.symm) hK ?_
    rw [hasEstimate_defaulted hG hd he hw hcl]
    exact (same_estimates hG hd he hw hpl hcl (fun γ => (hsame γ).symm)).mp hg
  obtain ⟨G', hest⟩ := hest
  obtain ⟨vs, k, hw', hit, hgr⟩ := c46_iteration hp hG hs hm g tol n w
  have hup : ∀ a, reestimate env (defaulted env.test G) a c = .ok (.fin g) := by
    intro a; unfold reestimate; rw [hest]
  have hnear : Within tol (.fin g) (.fin g) := ⟨g, g, rfl, rfl, by simpa using htol⟩
  have hcases : ∀ {vs}, Visits (fun i => maximiser env method (defaulted env.test G) (w.calls + i))
      (reestimate env (defaulted env.test G)) (Within tol) (.fin g) vs → vs = [] ∨ vs = [(.fin g, c)] := by
    intro vs hv
    match vs, hv with
    | [], _ => exact Or.inl rfl
    | [v], hv =>
      right
      have h1 := hv.start v rfl
      have h2 := hv.found 0 v rfl
      simp only [Nat.add_zero, h1, hc] at h2
      obtain ⟨a, b⟩ := v
      simp only at h1 h2
      rw [h1, Except.ok.inj h2]
    | v :: v' :: t, hv =>
      exfalso
      have h1 := hv.start v rfl
      have h2 := hv.found 0 v rfl
      simp only [Nat.add_zero, h1, hc] at h2
      have h3 := hv.step 0 v v' rfl rfl
      rw [← Except.ok.inj h2, hup, h1] at h3
      rw [← Except.ok.inj h3.1] at h3
      exact h3.2 hnear
  cases hr : (iterateMono env G g tol n false method w).1 with
  | error e =>
    exfalso
    rw [hr] at hit
    obtain ⟨hv, ⟨hl, -, v, hlast, hu⟩ | ⟨hl, -, π, hmx, hπ⟩⟩ := hit
    · rcases hcases hv with rfl | rfl
      · simp at hlast
      · simp at hlast
        rw [← hlast, hup] at hu
        cases hu
    · rcases hcases hv with rfl | rfl
      · rcases hπ with ⟨-, rfl⟩ | ⟨v, hv', -⟩
        · simp only [List.length_nil, Nat.add_zero] at hmx
          rw [hc] at hmx
          cases hmx
        · simp at hv'
      · rcases hπ with ⟨h', -⟩ | ⟨v, hv', hu, hnn⟩
        · simp at h'
        · simp at hv'
          rw [← hv', hup] at hu
          cases hu
          rw [← hv'] at hnn
          exact hnn hnear
  | ok x =>
    have hgx := hgr x hr
    rw [hr] at hit
    obtain ⟨γo, po, Go⟩ := x
    simp only at hgx
    subst hgx
    cases po with
    | none => have := hit.1; omega
    | some c' =>
      obtain ⟨hl, hk, hv, γ', hlast, hu, -⟩ := hit
      rcases hcases hv with rfl | rfl
      · simp at hlast
      · simp at hlast
        obtain ⟨rfl, rfl⟩ := hlast
        rw [hup] at hu
        cases hu
        refine ⟨c, _, Prod.ext hr rfl, ?_, hsame⟩
        refine (congrArg World.calls hw').trans ?_
        simp [hk]

/-- **C78 (fixed points survive pruning).** Unweighted undirected graph.  If the community detection, ideal with respect to
the partitions `parts`, returns at `g` the partition `c` whose gamma estimate is `g` (an exact fixed point of the
iteration), `c` is one of `parts`, `g` lies in the window, and `c` is strictly best somewhere inside the window, then pruning
`parts` returns `c`, up to a partition of exactly the same modularity. -/
theorem c78_fixed_is_stable {penv : PruneEnv} (hpe : SoundPruneEnv penv) (htest : penv.test = env.test) (hG : G.WF)
    (hd : G.directed = false) (he : 0 < G.ecount) (hw : CountsAsUnweighted env.test G) {parts : List (List α)}
    (hp : ∀ p ∈ parts, p.length = G.vcount)
    (hbest : BestAmong env method (defaulted env.test G) (Candidate parts none)) {i : Nat} {g γ₀ γf : ℝ} {c : List Nat}
    (hmx : maximiser env method (defaulted env.test G) i (.fin g) = .ok c) (hest : HasEstimate env.test G c g)
    {p : List α} (hpp : p ∈ parts) (hpc : SamePartition p c) (h0 : γ₀ ≤ g) (hf : g ≤ γf)
    (hsome : ∃ x, γ₀ < x ∧ x < γf ∧ ∀ q ∈ parts, ¬ SameModularity G q c → modularity G x q < modularity G x c)
    {st : Bool} {out : List (List Nat)} {G' : Graph ℝ}
    (h : pruneToStable penv G (.memberships parts) γ₀ γf none st = (some (.ok (out, G')) : Option _)) :
    ∃ c' ∈ out, SameModularity G c c' := by
  have hm : ∀ γ, modularity G γ p = modularity G γ c := modularity_same hpc (hp p hpp)
  have hcand : Candidate parts none p := ⟨hpp, by intro K h; cases h⟩
  rw [← htest] at hw hest
  have hcl : c.length = G.vcount := hpc.1.symm.trans (hp p hpp)
  have hst : Stable penv.test G (Candidate parts none) γ₀ γf p := by
    obtain ⟨x, hx0, hxf, hx⟩ := hsome
    refine ⟨⟨x, hx0, hxf, fun q hq hne => ?_⟩, g, ?_, h0, hf, fun q hq => ?_⟩
    · rw [hm]
      exact hx q hq.1 fun h' => hne fun γ => by rw [h' γ, hm]
    · exact (same_estimates hG hd he hw hcl (hp p hpp) (fun γ => (hm γ).symm)).mp hest
    · have := hbest _ _ _ hmx q hq
      rw [modularity_defaulted, modularity_defaulted] at this
      rwa [hm]
  obtain ⟨c', hc', hs'⟩ := (returned_iff_stable hpe hG hp h hcand fun q hq' hs γ =>
    same_estimates hG hd he hw (hp q hq'.1) (hp p hpp) hs).mpr hst
  exact ⟨c', hc', fun γ => by rw [← hm, hs' γ]⟩

/-! ## Multilayer networks -/

/-- At every pair of real parameters the multilayer community detection on the layer graphs `Gs` and the interlayer graph
returns a partition at least as good as every candidate. -/
def BestAmongMulti (env : LeidenEnv) (Gs : List (Graph ℝ)) (Gi Gx : Graph ℝ) (layer : List Nat) (cand : List α → Prop) :
    Prop :=
  ∀ i γ ω c, multiMaximiser env Gs (defaulted env.test Gx) i (.fin γ, ω) = .ok c → ∀ q, cand q →
    multilayerModularity Gi Gx layer γ ω q ≤ multilayerModularity Gi Gx layer γ ω c

theorem withinNullLayered_le_total {G : Graph ℝ} (layer : List Nat) (hl : layer.length = G.vcount) {β : Type} [DecidableEq β]
    (c : List β) : withinNullLayered G layer c ≤ (total G : ℝ) := by
  have hnn : ∀ i j : Nat, (0 : ℝ) ≤ (colSum G i : ℝ) * (rowSum G j : ℝ) / (layerTotal G layer (layer[i]?.getD 0) : ℝ) := by
    intro i j; positivity
  have htot : (total G : ℝ) = ∑ i ∈ Finset.range G.vcount, (colSum G i : ℝ) := by
    unfold total colSum
    rw [Finset.sum_comm]
    push_cast
    rfl
  rw [htot]
  unfold withinNullLayered
  refine Finset.sum_le_sum fun i hi => ?_
  rw [Finset.mem_range] at hi
  have hi' : i < layer.length := hl ▸ hi
  have e1 : layer[i]? = some layer[i] := List.getElem?_eq_getElem hi'
  have hL : (layerTotal G layer (layer[i]?.getD 0) : ℝ) =
      ∑ j ∈ Finset.range G.vcount, if layer[i]? = layer[j]? then (rowSum G j : ℝ) else 0 := by
    unfold layerTotal rowSum
    push_cast
    refine Finset.sum_congr rfl fun j hj => ?_
    rw [e1]
    simp only [Option.getD_some]
    by_cases h : layer[j]? = some layer[i]
    · rw [if_pos h.symm]
      simp [h]
    · rw [if_neg (fun h' => h h'.symm)]
      simp [h]
  calc _ ≤ ∑ j ∈ Finset.range G.vcount, if layer[i]? = layer[j]? then
        (colSum G i : ℝ) * (rowSum G j : ℝ) / (layerTotal G layer (layer[i]?.getD 0) : ℝ) else 0 := by
        refine Finset.sum_le_sum fun j _ => ?_
        split
        · rename_i h; rw [if_pos h.2]
        · split
          · exact hnn i j
          · exact le_refl _
    _ = (colSum G i : ℝ) / (layerTotal G layer (layer[i]?.getD 0) : ℝ) *
        ∑ j ∈ Finset.range G.vcount, if layer[i]? = layer[j]? then (rowSum G j : ℝ) else 0 := by
        rw [Finset.mul_sum]
        refine Finset.sum_congr rfl fun j _ => ?_
        split
        · ring
        · rw [mul_zero]
    _ ≤ (colSum G i : ℝ) := by
        rw [← hL]
        by_cases h0 : (layerTotal G layer (layer[i]?.getD 0) : ℝ) = 0
        · rw [h0]; simp
        · rw [div_mul_cancel₀ _ h0]

/-- **C78 (near-optimality, multilayer).** A call that stops before its iteration limit with a real gamma returns a
partition that is nearly optimal at the returned parameters: no candidate has a multilayer modularity larger by
`gamma_tol` times the intralayer total plus `omega_tol` times the interlayer total. -/
theorem c78_near_optimal_multilayer {obj : Nat} {Gi Gx : Graph ℝ} {layers : List Nat} {model : String} {T : Nat}
    {ws : List ℝ} (hp : ProducesPartitions env) (h : Admissible env Gi Gx layers model T ws)
    {cand : List α → Prop} {γ ω γtol ωtol ωmax : ℝ} {n : Nat} (hn : 0 < n) {verbose : Bool} {w w' : World}
    (hcap : 0 < w.cache.cap)
    (hbest : ∀ Gs, LayerGraphs w.cache obj (defaulted env.test Gi) layers Gs → BestAmongMulti env Gs Gi Gx layers cand)
    {γout ωout : ℝ} {c : List Nat} {Gi' Gx' : Graph ℝ}
    (hrun : iterateMulti env obj Gi Gx layers γ ω γtol ωtol ωmax n model verbose w =
      (.ok (.fin γout, ωout, c, Gi', Gx'), w')) (hstop : w'.calls < w.calls + n) {q : List α} (hq : cand q) :
    multilayerModularity Gi Gx layers γout ωout q ≤
      multilayerModularity Gi Gx layers γout ωout c + γtol * total Gi + ωtol * total Gx := by
  have hl : layers.length = Gi.vcount := h.accepted.vector.trans (defaulted_shape env.test Gi).1
  obtain ⟨hGi, hGx, -, -, -, -, Gs, ⟨γ', ω'⟩, hLG, hmx, hw⟩ := c47_returns_estimates_of_partition hp h hn hcap hrun
  obtain ⟨⟨x, y, hx, hy, hxy⟩, hω⟩ := hw hstop
  cases hx
  simp only at hy hω
  subst hy
  rw [hGx] at hmx
  rw [hGi] at hLG
  have hb := hbest Gs hLG _ _ _ _ hmx q hq
  unfold multilayerModularity at hb ⊢
  have a1 := withinNullLayered_nonneg Gi layers q
  have a2 := withinNullLayered_le_total layers hl q
  have a3 := withinNullLayered_nonneg Gi layers c
  have a4 := withinNullLayered_le_total layers hl c
  have b1 := withinAdj_nonneg Gx q
  have b2 := withinAdj_le Gx q
  have b3 := withinAdj_nonneg Gx c
  have b4 := withinAdj_le Gx c
  have h5 : |withinNullLayered Gi layers c - withinNullLayered Gi layers q| ≤ (total Gi : ℝ) := by
    rw [abs_le]; constructor <;> linarith
  have h5' : |withinAdj Gx q - withinAdj Gx c| ≤ (total Gx : ℝ) := by
    rw [abs_le]; constructor <;> linarith
  have h6 : (γout - y) * (withinNullLayered Gi layers c - withinNullLayered Gi layers q) ≤ γtol * total Gi := by
    refine (le_abs_self _).trans ?_
    rw [abs_mul]
    exact mul_le_mul hxy.le h5 (abs_nonneg _) ((abs_nonneg _).trans hxy.le)
  have h7 : (ωout - ω') * (withinAdj Gx q - withinAdj Gx c) ≤ ωtol * total Gx := by
    refine (le_abs_self _).trans ?_
    rw [abs_mul]
    exact mul_le_mul hω.le h5' (abs_nonneg _) ((abs_nonneg _).trans hω.le)
  linarith

/-! ## An exact optimiser is ideal -/

/-- leidenalg's single-layer optimisation is exact: what it returns has maximal quality among all memberships with labels
`0..K-1`. -/
def ExactLeiden (env : LeidenEnv) (G : Graph ℝ) : Prop :=
  ∀ i γ c, env.findPartition i G (.fin γ) = .ok c → ∀ d K, d.length = G.vcount → Contiguous d K →
    rbQuality G γ d ≤ rbQuality G γ c

/-- leidenalg's multiplex optimisation is exact for the problem made of the layer graphs and the interlayer graph. -/
def ExactMultiplex (env : LeidenEnv) (possible : Bool → Nat → ℝ) (Gs : List (Graph ℝ)) (Gx : Graph ℝ) : Prop :=
  ∀ i γ ω c, multiMaximiser env Gs Gx i (.fin γ, ω) = .ok c → ∀ d K, d.length = Gx.vcount → Contiguous d K →
    multiplexObjective possible (multiplexProblem Gs Gx γ ω) d ≤
      multiplexObjective possible (multiplexProblem Gs Gx γ ω) c

/-- **C78 (exact optimisation is ideal).** On an unweighted graph an exact Leiden optimiser is best among *all*
partitions. -/
theorem c78_exact_leiden (hp : ProducesPartitions env) (hG : G.WF) (hw : UnitWeights G) (hm : method = "leiden" ∨ method = "louvain")
    (hx : ExactLeiden env G) : BestAmong env method G (fun q : List α => q.length = G.vcount) := by
  intro i γ c hc q hq
  have hne : method ≠ "2-spinglass" := by rcases hm with rfl | rfl <;> decide
  unfold maximiser at hc
  rw [if_neg hne] at hc
  have hcl := hp.1 i G _ c hc
  have h1 := hx i γ c hc (canon q) _ ((canon_length q).trans hq) (canon_mem_iff q)
  rw [rbQuality_eq hG hw ((canon_length q).trans hq), rbQuality_eq hG hw hcl, ← modularity_affine, ← modularity_affine,
    modularity_canon hq] at h1
  exact h1

theorem multilayerModularity_canon {Gi Gx : Graph ℝ} (hv : Gx.vcount = Gi.vcount) {layer : List Nat} {q : List α}
    (hq : q.length = Gi.vcount) (γ ω : ℝ) :
    multilayerModularity Gi Gx layer γ ω (canon q) = multilayerModularity Gi Gx layer γ ω q := by
  unfold multilayerModularity
  have h := canon_same q
  have hl : (canon q).length = Gi.vcount := (canon_length q).trans hq
  rw [withinAdj_same h hl, withinNullLayered_same h hl, withinAdj_same h (hl.trans hv.symm)]

/-- **C78 (exact optimisation is ideal, multilayer).** On an unweighted multilayer network with an edge in every layer and
none between layers, exact multiplex optimisation on the graphs of its layers is best among *all* partitions. -/
theorem c78_exact_multilayer (hp : ProducesPartitions env) {Gi Gx : Graph ℝ} {layer : List Nat} (hG : Gi.WF) (hX : Gx.WF)
    (hv : Gx.vcount = Gi.vcount) (hwi : UnitWeights Gi) (hwx : UnitWeights Gx) (hdx : defaulted env.test Gx = Gx)
    (hl : layer.length = Gi.vcount) (hn : layer ≠ []) (hx : ∀ e ∈ Gi.edges, layer[e.1]? = layer[e.2]?)
    (hedge : ∀ t ∈ layer, ∃ e ∈ Gi.edges, layer[e.1]? = some t) {Gs : List (Graph ℝ)}
    (hs : splitLayers Gi.vcount Gi.edges Gi.weight Gi.directed layer = .ok Gs) (possible : Bool → Nat → ℝ)
    (hex : ExactMultiplex env possible Gs Gx) :
    BestAmongMulti env Gs Gi Gx layer (fun q : List α => q.length = Gi.vcount) := by
  intro i γ ω c hc q hq
  rw [hdx] at hc
  have hcl : c.length = Gi.vcount := by
    have := hp.2 i _ _ c hc Gx 0 (Or.inr (by simp [multiplexProblem]))
    exact this.trans hv
  have key : ∀ d : List Nat, d.length = Gi.vcount → multiplexObjective possible (multiplexProblem Gs Gx γ ω) d =
      multilayerModularity Gi Gx layer γ ω d := by
    intro d hd
    obtain ⟨Gs', A, P, C, h1, h2, h3⟩ := c55_multilayer_objective hG hX hv hwi hwx hl hn hx hedge hd
    rw [h1] at hs
    obtain rfl := Except.ok.inj hs
    obtain ⟨A', P', C', h4, rfl, rfl, rfl, -⟩ := c08_coefficients_multilayer hG hX hv hl hn (Or.inr hx) hedge
      (parts := [d]) (by simpa using hd)
    rw [h4] at h2
    simp only [List.map_cons, List.map_nil, Except.ok.injEq, Prod.mk.injEq, List.cons.injEq, and_true, Fl.fin.injEq] at h2
    obtain ⟨rfl, rfl, rfl⟩ := h2
    rw [h3]
    rfl
  have hql : (canon q).length = Gi.vcount := (canon_length q).trans hq
  have h1 := hex i γ ω c hc (canon q) _ (hql.trans hv.symm) (canon_mem_iff q)
  rw [key _ hql, key _ hcl, multilayerModularity_canon hv hq] at h1
  exact h1

/-! ## Witnesses -/

theorem exists_best (n : Nat) (f : List Nat → ℝ) :
    ∃ c : List Nat, (c.length = n ∧ ∃ K, Contiguous c K) ∧ ∀ d K, d.length = n → Contiguous d K → f d ≤ f c := by
  have hfin : {d : List Nat | d.length = n ∧ ∃ K, Contiguous d K}.Finite := by
    refine Set.Finite.subset (Set.finite_range fun g : Fin n → Fin (n + 1) => List.ofFn fun i => (g i : Nat)) ?_
    rintro d ⟨rfl, K, hK⟩
    have hKn : K ≤ d.length := by
      rw [← contiguous_dedup hK]; exact (List.dedup_sublist d).length_le
    refine ⟨fun i => ⟨d[i], by have := (hK d[i]).mp (List.getElem_mem _); omega⟩, ?_⟩
    simp
  obtain ⟨c, hc, hmax⟩ := Set.exists_max_image _ f hfin ⟨List.replicate n 0, by
    refine ⟨by simp, if n = 0 then 0 else 1, fun k => ?_⟩
    rw [List.mem_replicate]
    split <;> omega⟩
  exact ⟨c, hc, fun d K hd hK => hmax d ⟨hd, K, hK⟩⟩

/-- the graph of a partition object -/
def partGraph {R : Type} : VertexPartition ℝ R → Graph ℝ
  | .rb G _ => G
  | .cpm G _ => G

/-- the same partition object with a real resolution -/
def realPart : VertexPartition ℝ (Fl ℝ) → VertexPartition ℝ ℝ
  | .rb G γ => .rb G (match γ with | .fin x => x | _ => 0)
  | .cpm G γ => .cpm G (match γ with | .fin x => x | _ => 0)

theorem realPart_problem (Gs : List (Graph ℝ)) (Gx : Graph ℝ) (γ ω : ℝ) :
    (multiplexProblem Gs Gx (.fin γ : Fl ℝ) ω).1.map realPart = (multiplexProblem Gs Gx γ ω).1 := by
  simp only [multiplexProblem, List.map_append, List.map_map, List.map_cons, List.map_nil]
  rfl

open Classical in
/-- leidenalg with exact optimisation. -/
noncomputable def idealEnv : LeidenEnv where
  test := fun G => G.weight.isSome
  findPartition := fun _ G γ => .ok (exists_best G.vcount (rbQuality G (match γ with | .fin x => x | _ => 0))).choose
  optimiseMultiplex := fun _ parts ws =>
    match parts with
    | [] => .ok []
    | p :: _ =>
      if ∀ q ∈ parts, (partGraph q).vcount = (partGraph p).vcount then
        .ok (exists_best (partGraph p).vcount (multiplexObjective (fun _ _ => 0) (parts.map realPart, ws))).choose
      else .error (.valueError "graphs of different size")
  spinglass := fun _ _ _ => .error .keyError
  fsolve := fun _ x => x
  fmt := fun _ => "x"

theorem idealEnv_produces : ProducesPartitions idealEnv := by
  refine ⟨fun i G γ c h => ?_, fun i parts ws c h G γ hG => ?_⟩
  · cases h
    exact (exists_best G.vcount _).choose_spec.1.1
  · unfold idealEnv at h
    simp only at h
    match parts, h, hG with
    | [], _, hG => simp at hG
    | p :: ps, h, hG =>
      simp only at h
      split at h
      · rename_i hall
        cases h
        rw [(exists_best (partGraph p).vcount _).choose_spec.1.1]
        rcases hG with hG | hG
        · exact (hall _ hG).symm
        · exact (hall _ hG).symm
      · cases h

theorem idealEnv_exact_multiplex (Gs : List (Graph ℝ)) (Gx : Graph ℝ) :
    ExactMultiplex idealEnv (fun _ _ => 0) Gs Gx := by
  intro i γ ω c h d K hd hK
  unfold multiMaximiser idealEnv at h
  simp only at h
  rw [show multiplexProblem Gs Gx γ ω = ((multiplexProblem Gs Gx (.fin γ : Fl ℝ) ω).1.map realPart,
    (multiplexProblem Gs Gx (.fin γ : Fl ℝ) ω).2) from
    Prod.ext (realPart_problem ..).symm (by simp [multiplexProblem])]
  have hmem : (.cpm Gx 0 : VertexPartition ℝ (Fl ℝ)) ∈ (multiplexProblem Gs Gx (.fin γ : Fl ℝ) ω).1 := by
    simp [multiplexProblem]
  generalize (multiplexProblem Gs Gx (.fin γ : Fl ℝ) ω).1 = parts at *
  generalize (multiplexProblem Gs Gx (.fin γ : Fl ℝ) ω).2 = ws at *
  match parts, h, hmem with
  | [], _, hmem => simp at hmem
  | p :: ps, h, hmem =>
    simp only at h
    split at h
    · rename_i hall
      cases h
      have e : Gx.vcount = (partGraph p).vcount := hall _ hmem
      exact (exists_best (partGraph p).vcount (multiplexObjective (fun _ _ => 0) ((p :: ps).map realPart, ws))).choose_spec.2
        d K (hd.trans e) hK
    · cases h

theorem idealEnv_exact (G : Graph ℝ) : ExactLeiden idealEnv G := by
  intro i γ c h d K hd hK
  cases h
  exact (exists_best G.vcount (rbQuality G γ)).choose_spec.2 d K hd hK

/-- With exact optimisation every run of the iteration that stops early is near-optimal among all partitions of the five
vertices of `gReal`. -/
example {γ tol γout : ℝ} {n : Nat} {w w' : World} {c : List Nat} {Gout : Graph ℝ}
    (h : iterateMono idealEnv gReal γ tol n false "leiden" w = (.ok (.fin γout, some c, Gout), w'))
    (hn : w'.calls < w.calls + n) {q : List Nat} (hq : q.length = 5) :
    modularity gReal γout q ≤ modularity gReal γout c + tol * 10 := by
  have := c78_near_optimal idealEnv_produces gReal_wf (fun h => by cases h) (Or.inr (Or.inl rfl))
    (c78_exact_leiden (α := Nat) idealEnv_produces (defaulted_wf gReal_wf) rfl (Or.inl rfl) (idealEnv_exact _)) h hn hq
  rwa [show (total gReal : ℝ) = 10 from by exact_mod_cast (by decide : total gReal = 10)] at this

/-- With exact optimisation every run of the multilayer iteration in a new process that stops early is near-optimal among all
partitions of the six vertices of the two-layer witness. -/
example {γ ω γtol ωtol ωmax γout ωout : ℝ} {n : Nat} (hn : 0 < n) {w' : World} {c : List Nat} {Gi' Gx' : Graph ℝ}
    (h : iterateMulti idealEnv 0 gIntraR gInterR [0, 0, 0, 1, 1, 1] γ ω γtol ωtol ωmax n "temporal" false World.fresh =
      (.ok (.fin γout, ωout, c, Gi', Gx'), w')) (hstop : w'.calls < n) {q : List Nat} (hq : q.length = 6) :
    multilayerModularity gIntraR gInterR [0, 0, 0, 1, 1, 1] γout ωout q ≤
      multilayerModularity gIntraR gInterR [0, 0, 0, 1, 1, 1] γout ωout c + γtol * 8 + ωtol * 3 := by
  have hadm : Admissible idealEnv gIntraR gInterR [0, 0, 0, 1, 1, 1] "temporal" 2 [1, 1, 1, 1] := by
    have := copies_admissible
    exact ⟨this.intra, this.inter, (fun h => by cases h), rfl, this.top, this.below, this.accepted, this.known⟩
  have := c78_near_optimal_multilayer (α := Nat) (cand := fun q => q.length = 6) idealEnv_produces hadm hn (by decide)
    (fun Gs hGs => by
      unfold LayerGraphs splitIntralayer at hGs
      have hsp := hGs.symm.trans (LRU.call_miss (by simp [World.fresh, emptySplitCache, LRU.empty]) _)
      have hb := c78_exact_multilayer (α := Nat) (env := idealEnv) (Gi := defaulted idealEnv.test gIntraR)
        (Gx := defaulted idealEnv.test gInterR) (layer := [0, 0, 0, 1, 1, 1]) idealEnv_produces
        (defaulted_wf gIntraR_multilayer.intra) (defaulted_wf gIntraR_multilayer.inter) rfl rfl rfl rfl rfl (by decide)
        (by decide) (by decide) hsp.symm (fun _ _ => 0) (idealEnv_exact_multiplex _ _)
      exact hb) h (by simpa [World.fresh] using hstop) hq
  rwa [show (total gIntraR : ℝ) = 8 from by exact_mod_cast (by decide : total gIntraR = 8),
    show (total gInterR : ℝ) = 3 from by exact_mod_cast (by decide : total gInterR = 3)] at this

/-- the three partitions of the pruning witness with labels `0..K-1` -/
def threeCanon : List (List Nat) := [[0, 0, 0, 0, 0], [0, 0, 1, 1, 1], [0, 1, 2, 3, 4]]

theorem exists_best_three (γ : ℝ) : ∃ c ∈ threeCanon, ∀ d ∈ threeCanon, modularity gReal γ d ≤ modularity gReal γ c := by
  obtain ⟨c, hc, h⟩ := Finset.exists_max_image threeCanon.toFinset (fun d => modularity gReal γ d)
    ⟨[0, 0, 0, 0, 0], by simp [threeCanon]⟩
  exact ⟨c, by simpa using hc, fun d hd => h d (by simpa using hd)⟩

open Classical in
/-- A community detection that finds the best of three partitions of `gReal`. -/
noncomputable def threeEnv : LeidenEnv where
  test := fun G => G.weight.isSome
  findPartition := fun _ G γ => .ok (if G.vcount = 5 then
    (exists_best_three (match γ with | .fin x => x | _ => 0)).choose else List.replicate G.vcount 0)
  optimiseMultiplex := fun _ _ _ => .error .keyError
  spinglass := fun _ _ _ => .error .keyError
  fsolve := fun _ x => x
  fmt := fun _ => "x"

theorem threeCanon_length : ∀ c ∈ threeCanon, c.length = 5 := by decide

theorem threeCanon_contiguous : ∀ c ∈ threeCanon, ∃ K, Contiguous c K := by
  intro c hc
  simp only [threeCanon, List.mem_cons, List.not_mem_nil, or_false] at hc
  rcases hc with rfl | rfl | rfl
  · exact ⟨1, fun k => by simp⟩
  · exact ⟨2, fun k => by simp; omega⟩
  · exact ⟨5, fun k => by simp; omega⟩

theorem threeEnv_produces : ProducesPartitions threeEnv := by
  refine ⟨fun i G γ c h => ?_, fun _ _ _ _ h => by cases h⟩
  cases h
  split
  · rename_i h5
    rw [h5]
    exact threeCanon_length _ (exists_best_three _).choose_spec.1
  · simp

theorem threeEnv_best : BestAmong threeEnv "leiden" (defaulted threeEnv.test gReal) (· ∈ threeCanon) := by
  intro i γ c h q hq
  have h' : threeEnv.findPartition i (defaulted threeEnv.test gReal) (.fin γ) = .ok c := h
  cases h'
  have h5 : (defaulted threeEnv.test gReal).vcount = 5 := rfl
  rw [modularity_defaulted, modularity_defaulted]
  simp only [if_pos h5]
  exact (exists_best_three γ).choose_spec.2 q hq

theorem threeCanon_two (γ : ℝ) : modularity gReal γ ([0, 0, 1, 1, 1] : List Nat) = 6 - γ * (52 / 10) := by
  obtain ⟨hA, hP, hA1, hP1, hA0, hP0⟩ := gReal_coefs
  have e : modularity gReal γ ([0, 0, 1, 1, 1] : List Nat) = modularity gReal γ ([7, 7, 2, 2, 2] : List Nat) :=
    modularity_same (p := [0, 0, 1, 1, 1]) (q := [7, 7, 2, 2, 2]) ⟨rfl, fun i j hi hj =>
      (by decide : ∀ i < 5, ∀ j < 5, ([0, 0, 1, 1, 1][i]? = [0, 0, 1, 1, 1][j]? ↔
        [7, 7, 2, 2, 2][i]? = [7, 7, 2, 2, 2][j]?)) i hi j hj⟩ rfl γ
  rw [e, modularity_affine, hA, hP]

theorem threeCanon_one (γ : ℝ) : modularity gReal γ ([0, 0, 0, 0, 0] : List Nat) = 10 - γ * 10 := by
  obtain ⟨hA, hP, hA1, hP1, hA0, hP0⟩ := gReal_coefs
  have e : modularity gReal γ ([0, 0, 0, 0, 0] : List Nat) = modularity gReal γ ([4, 4, 4, 4, 4] : List Nat) :=
    modularity_same (p := [0, 0, 0, 0, 0]) (q := [4, 4, 4, 4, 4]) ⟨rfl, fun i j hi hj =>
      (by decide : ∀ i < 5, ∀ j < 5, ([0, 0, 0, 0, 0][i]? = [0, 0, 0, 0, 0][j]? ↔
        [4, 4, 4, 4, 4][i]? = [4, 4, 4, 4, 4][j]?)) i hi j hj⟩ rfl γ
  rw [e, modularity_affine, hA1, hP1]

theorem threeCanon_five (γ : ℝ) : modularity gReal γ ([0, 1, 2, 3, 4] : List Nat) = 0 - γ * (22 / 10) := by
  obtain ⟨hA, hP, hA1, hP1, hA0, hP0⟩ := gReal_coefs
  have e : modularity gReal γ ([0, 1, 2, 3, 4] : List Nat) = modularity gReal γ ([4, 3, 2, 1, 0] : List Nat) :=
    modularity_same (p := [0, 1, 2, 3, 4]) (q := [4, 3, 2, 1, 0]) ⟨rfl, fun i j hi hj =>
      (by decide : ∀ i < 5, ∀ j < 5, ([0, 1, 2, 3, 4][i]? = [0, 1, 2, 3, 4][j]? ↔
        [4, 3, 2, 1, 0][i]? = [4, 3, 2, 1, 0][j]?)) i hi j hj⟩ rfl γ
  rw [e, modularity_affine, hA0, hP0]

/-- The two-community partition of `gReal` is a fixed point of the iteration. -/
example : ∃ g c w', iterateMono threeEnv gReal g (1 / 100) 25 false "leiden" World.fresh =
    (.ok (.fin g, some c, defaulted threeEnv.test gReal), w') ∧ w'.calls = 1 ∧
      SameModularity gReal c ([0, 0, 1, 1, 1] : List Nat) := by
  obtain ⟨hA, hP, hA1, hP1, hA0, hP0⟩ := gReal_coefs
  have e1 := threeCanon_two
  have e2 := threeCanon_one
  have e3 := threeCanon_five
  have hec : (gReal.ecount : ℝ) = 5 := by norm_num [gReal, Graph.ecount]
  have hcu : CountsAsUnweighted threeEnv.test gReal := by intro h; cases h
  have hE : HasEstimate threeEnv.test gReal [7, 7, 2, 2, 2] (logMean (6 / (52 / 10)) ((10 - 6) / (10 - 52 / 10))) := by
    rw [hasEstimate_unweighted gReal_wf rfl (by decide) hcu rfl, hA, hP, hec]
    refine ⟨by norm_num, by norm_num, by norm_num, by norm_num, by norm_num⟩
  have hE' := (same_estimates gReal_wf rfl (by decide) hcu (p := [7, 7, 2, 2, 2]) (q := ([0, 0, 1, 1, 1] : List Nat)) rfl rfl
    (fun γ => by rw [e1, modularity_affine, hA, hP])).mp hE
  obtain ⟨b1, b2⟩ := logMean_between (a := 6 / (52 / 10)) (b := (10 - 6) / (10 - 52 / 10)) (by norm_num) (by norm_num)
    (by norm_num)
  generalize logMean (6 / (52 / 10)) ((10 - 6) / (10 - 52 / 10)) = γ at *
  norm_num at b1 b2
  obtain ⟨c, w', h1, h2, h3⟩ := c78_stable_is_fixed threeEnv_produces gReal_wf (fun h => by cases h) (Or.inr (Or.inl rfl)) rfl
    (by decide) hcu threeEnv_best (p := [0, 0, 1, 1, 1]) (by decide) rfl hE' (by
      intro q hq hn
      simp only [threeCanon, List.mem_cons, List.not_mem_nil, or_false] at hq
      rcases hq with rfl | rfl | rfl
      · rw [e1, e2]; linarith
      · exact absurd (fun _ => rfl) hn
      · rw [e1, e3]; linarith) (tol := 1 / 100) (by norm_num) (n := 25) (by norm_num) World.fresh (by
      refine ⟨(exists_best_three γ).choose, ?_, threeCanon_length _ (exists_best_three γ).choose_spec.1,
        threeCanon_contiguous _ (exists_best_three γ).choose_spec.1, _, (exists_best_three γ).choose_spec.1,
        SamePartition.refl _⟩
      show (Except.ok (if (5 : Nat) = 5 then _ else _) : Py _) = _
      rw [if_pos rfl])
  exact ⟨γ, c, w', h1, by simpa [World.fresh] using h2, h3⟩

end Verif.Props
