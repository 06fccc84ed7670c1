import Verif.Proofs.Prune
import Verif.Props.Estimation

/-!
# Properties C38–C42: `prune_to_stable_partitions`

`HasEstimate`, `SameModularity`, `Candidate` and `Stable` are in `Verif.Spec.Prune`; `modularity` is the matrix
definition.  Partitions come with arbitrary (ordered) labels.
-/

namespace Verif.Props
open Verif Verif.Spec

variable {α β : Type} [LinearOrder α] [LinearOrder β] {env env' : PruneEnv} {G : Graph ℝ} {parts : List (List α)}
  {parts' : List (List β)} {γ₀ γf : ℝ} {restrict restrict' : Option Nat} {st st' : Bool} {out out' : List (List Nat)}
  {G' G'' : Graph ℝ}

/-- The graph counts as unweighted: its weights are all 1 or igraph denies that it has any. -/
def CountsAsUnweighted (test : Graph ℝ → Bool) (G : Graph ℝ) : Prop := test G = true → UnitWeights G

theorem setEsWeight_ones {F : Type} [One F] {G : Graph F} {n : Nat} (hn : 0 < n) :
    G.setEsWeight (List.replicate n 1) = .ok { G with weight := some (List.replicate G.edges.length 1) } := by
  unfold Graph.setEsWeight
  rw [if_neg (by rintro ⟨h, -⟩; rw [List.replicate_eq_nil_iff] at h; omega)]
  congr 3
  rw [List.length_replicate]
  have : (fun i => (List.replicate n (1 : F))[i % n]?) = fun _ => some 1 := by
    funext i
    rw [List.getElem?_replicate_of_lt (Nat.mod_lt _ hn)]
  rw [this]
  induction G.edges.length with
  | zero => rfl
  | succ k ih => rw [List.range_succ, List.filterMap_append, ih]; simp [List.replicate_succ']

theorem vcount_pos (hG : G.WF) (hm : 0 < G.ecount) : 0 < G.vcount := by
  obtain ⟨e, he⟩ := List.exists_mem_of_length_pos hm
  have := (hG.1 e he).1
  omega

theorem modularity_withWeight (G : Graph ℝ) (w : Option (List ℝ)) (c : List α) :
    withinAdj { G with weight := w } c = withinAdj G c ∧ withinNull { G with weight := w } c = withinNull G c := by
  constructor <;> rfl

/-- The gamma estimate of a partition of an unweighted undirected graph: it is a real number iff the number of inner edges
is neither zero, nor maximal, nor what the null model expects, and then it is the logarithmic mean of `A / P` and
`(2m - A) / (2m - P)`. -/
theorem hasEstimate_unweighted (hG : G.WF) (hd : G.directed = false) (hm : 0 < G.ecount) {test : Graph ℝ → Bool}
    (hw : CountsAsUnweighted test G) {p : List α} (hp : p.length = G.vcount) (γ : ℝ) :
    HasEstimate test G p γ ↔
      0 < withinAdj G p ∧ withinAdj G p < 2 * G.ecount ∧ withinNull G p < 2 * G.ecount ∧
        withinAdj G p ≠ withinNull G p ∧
        γ = logMean (withinAdj G p / withinNull G p)
          ((2 * G.ecount - withinAdj G p) / (2 * G.ecount - withinNull G p)) := by
  have hPpos := withinNull_pos (F := ℝ) hG hd hm hp
  have hlenc : (canon p).length = G.vcount := by rw [canon_length, hp]
  have hA : withinAdj G (canon p) = withinAdj G p := withinAdj_same (canon_same p) hlenc
  have hP : withinNull G (canon p) = withinNull G p := withinNull_same (canon_same p) hlenc
  have hens : ensureWeight test G.vcount G = .ok { G with weight := some (List.replicate G.edges.length 1) } := by
    unfold ensureWeight
    by_cases ht : test G = true
    · rw [if_pos ht]
      have : G.weight = some (List.replicate G.edges.length 1) := hw ht
      rw [← this]
    · rw [if_neg ht, setEsWeight_ones (vcount_pos hG hm)]
  set G₁ : Graph ℝ := { G with weight := some (List.replicate G.edges.length 1) } with hG₁
  have hWF : G₁.WF := ⟨hG.1, by intro ws h; rw [← Option.some.inj h]; simp [hG₁]⟩
  obtain ⟨ws, h1, h2, h3⟩ := unit_zip (G := G₁) rfl
  have hin : 2 * wInside (G₁.edges.map fun e => (e, (1 : ℝ))) (canon p) = withinAdj G p := by
    rw [unit_wInside, ← hA]
    have := withinAdj_undirected (F := ℝ) hWF hd hlenc
    rw [← this]; rfl
  have heq := estimateSinglelayerSBM_eq hWF hlenc h1
  have hK : Contiguous (canon p) p.dedup.length := canon_mem_iff p
  have hsq : strengthSq (G₁.edges.map fun e => (e, (1 : ℝ))) (canon p) / (2 * (G₁.ecount : ℝ)) = withinNull G p := by
    rw [unit_strengthSq hWF hd hlenc, ← hP]; rfl
  have h20 : (2 * (G.ecount : ℝ)) ≠ 0 := by
    have : (0 : ℝ) < G.ecount := by exact_mod_cast hm
    positivity
  have hec : G₁.ecount = G.ecount := rfl
  rw [h2, h3, hsq, hin, partLen_contiguous hK, hec, if_neg h20, if_neg hPpos.ne'] at heq
  have htot : (total G : ℝ) = 2 * G.ecount := by rw [total_eq hG]; simp [hd]
  have hPle : withinNull G p ≤ 2 * (G.ecount : ℝ) := htot ▸ withinNull_le G p
  have hgam : gammaEstimate test G (canon p) =
      (estimateSinglelayerSBM G₁ (canon p) none >>= fun r => .ok (gammaFromParameters r.1 r.2, G₁)) := by
    unfold gammaEstimate
    rw [hens, Py.ok_bind]
    unfold leidenPartWithMembership
    rw [if_pos hlenc, Py.ok_bind]
    rfl
  have hiff : HasEstimate test G p γ ↔ ∃ G', gammaEstimate test G (canon p) = .ok (some (.fin γ), G') := by
    unfold HasEstimate
    rw [sortedTuple_eq]
    constructor
    · rintro ⟨c, G', h, h'⟩
      obtain rfl := Except.ok.inj h
      exact ⟨G', h'⟩
    · rintro ⟨G', h⟩; exact ⟨_, G', rfl, h⟩
  rw [hiff, hgam, heq]
  by_cases hK1 : 1 < p.dedup.length
  · rw [if_pos hK1]
    by_cases hPW : 2 * (G.ecount : ℝ) - withinNull G p = 0
    · rw [if_pos hPW]
      constructor
      · rintro ⟨_, h⟩; cases h
      · rintro ⟨_, _, h, _⟩; linarith
    · rw [if_neg hPW]
      have hlt : 0 < 2 * (G.ecount : ℝ) - withinNull G p := lt_of_le_of_ne (by linarith) (Ne.symm hPW)
      simp only [Py.ok_bind, Except.ok.injEq, Prod.mk.injEq, exists_eq_right']
      rw [(c27_degenerate_estimates _ _).2.2.1, div_pos_iff_of_pos_right hPpos, div_pos_iff_of_pos_right hlt]
      have hne : withinAdj G p / withinNull G p ≠ (2 * (G.ecount : ℝ) - withinAdj G p) / (2 * G.ecount - withinNull G p) ↔
          withinAdj G p ≠ withinNull G p := by
        rw [Ne, div_eq_div_iff hPpos.ne' hPW, not_iff_not]
        constructor
        · intro h
          have : 2 * (G.ecount : ℝ) * (withinAdj G p - withinNull G p) = 0 := by linarith
          rcases mul_eq_zero.mp this with h | h
          · exact absurd h h20
          · linarith
        · intro h; rw [h]; ring
      rw [hne]
      constructor
      · rintro ⟨a, b, c, d⟩; exact ⟨a, by linarith, by linarith, c, d⟩
      · rintro ⟨a, b, _, c, d⟩; exact ⟨a, by linarith, c, d⟩
  · rw [if_neg hK1]
    have hcst : ∀ i j, i < G.vcount → j < G.vcount → (canon p)[i]? = (canon p)[j]? := by
      intro i j hi hj
      have hi' : i < (canon p).length := by omega
      have hj' : j < (canon p).length := by omega
      have b1 := (hK _).mp (List.getElem_mem hi')
      have b2 := (hK _).mp (List.getElem_mem hj')
      rw [List.getElem?_eq_getElem hi', List.getElem?_eq_getElem hj']
      congr 1; omega
    have hPall := withinNull_all (F := ℝ) hcst
    rw [hP, htot] at hPall
    constructor
    · rintro ⟨_, h⟩
      simp only [Py.ok_bind, Except.ok.injEq, Prod.mk.injEq] at h
      rw [(c27_degenerate_estimates _ _).2.2.1] at h
      exact absurd h.1.2.1 (lt_irrefl _)
    · rintro ⟨_, _, h, _⟩; linarith

/-- In an unweighted undirected graph partitions with the same modularity everywhere have the same estimate. -/
theorem same_estimates (hG : G.WF) (hd : G.directed = false) (hm : 0 < G.ecount) {test : Graph ℝ → Bool}
    (hw : CountsAsUnweighted test G) {p : List α} {q : List β} (hp : p.length = G.vcount) (hq : q.length = G.vcount)
    (hs : SameModularity G p q) {γ : ℝ} : HasEstimate test G p γ ↔ HasEstimate test G q γ := by
  have e0 := hs 0
  have e1 := hs 1
  simp only [modularity_affine] at e0 e1
  have eA : withinAdj G p = withinAdj G q := by linarith
  have eP : withinNull G p = withinNull G q := by linarith
  rw [hasEstimate_unweighted hG hd hm hw hp, hasEstimate_unweighted hG hd hm hw hq, ← eA, ← eP]

theorem logMean_between {a b : ℝ} (ha : 0 < a) (hb : 0 < b) (hab : a ≠ b) : min a b < logMean a b ∧ logMean a b < max a b := by
  obtain ⟨g, hg, -, h1, h2, -⟩ := c26_logarithmic_mean ha hb hab
  rw [(c27_degenerate_estimates a b).2.2.1] at hg
  rw [← hg.2.2.2]
  exact ⟨h1, h2⟩

/-- **C64.** Unweighted undirected graph, a partition whose gamma estimate is the real number `γ`: it has more inner edges
than the null model expects (positive modularity at resolution 1) iff, at resolution `γ`, its modularity is positive and
larger than that of the partition into one community. -/
theorem c64_beats_trivial_partitions (hG : G.WF) (hd : G.directed = false) (hm : 0 < G.ecount)
    {test : Graph ℝ → Bool} (hw : CountsAsUnweighted test G) {p : List α} (hp : p.length = G.vcount) {γ : ℝ}
    (h : HasEstimate test G p γ) :
    0 < modularity G 1 p ↔
      0 < modularity G γ p ∧ modularity G γ (List.replicate G.vcount 0) < modularity G γ p := by
  rw [hasEstimate_unweighted hG hd hm hw hp] at h
  obtain ⟨hA, hAW, hPW, hAP, rfl⟩ := h
  have hPpos := withinNull_pos (F := ℝ) hG hd hm hp
  have htot : (total G : ℝ) = 2 * G.ecount := by rw [total_eq hG]; simp [hd]
  have hcst : ∀ i j, i < G.vcount → j < G.vcount → (List.replicate G.vcount 0)[i]? = (List.replicate G.vcount 0)[j]? := by
    intro i j hi hj
    rw [List.getElem?_replicate_of_lt hi, List.getElem?_replicate_of_lt hj]
  have e1 := withinAdj_all (F := ℝ) hcst
  have e2 := withinNull_all (F := ℝ) hcst
  rw [htot] at e1 e2
  simp only [modularity_affine]
  rw [e1, e2]
  generalize withinAdj G p = A at *
  generalize withinNull G p = P at *
  generalize (2 * (G.ecount : ℝ)) = W at *
  have hWA : 0 < W - A := by linarith
  have hWP : 0 < W - P := by linarith
  have hx : 0 < A / P := div_pos hA hPpos
  have hy : 0 < (W - A) / (W - P) := div_pos hWA hWP
  have hlt : (W - A) / (W - P) < A / P ↔ P < A := by
    rw [div_lt_div_iff₀ hWP hPpos]
    have hW : 0 < W := by linarith
    constructor
    · intro h
      have : 0 < W * (A - P) := by linarith
      have := (mul_pos_iff_of_pos_left hW).mp this
      linarith
    · intro h
      have : 0 < W * (A - P) := mul_pos hW (by linarith)
      linarith
  have hne : A / P ≠ (W - A) / (W - P) := by
    intro h
    rw [div_eq_div_iff hPpos.ne' hWP.ne'] at h
    have : W * (A - P) = 0 := by linarith
    rcases mul_eq_zero.mp this with h | h
    · linarith
    · exact hAP (by linarith)
  obtain ⟨b1, b2⟩ := logMean_between hx hy hne
  set g := logMean (A / P) ((W - A) / (W - P)) with hg
  have k1 : 0 < A - g * P ↔ g < A / P := by rw [lt_div_iff₀ hPpos]; constructor <;> intro h <;> linarith
  have k2 : W - g * W < A - g * P ↔ (W - A) / (W - P) < g := by
    rw [div_lt_iff₀ hWP]; constructor <;> intro h <;> linarith
  rw [k1, k2]
  constructor
  · intro h
    have hPA : P < A := by linarith
    have h' := hlt.mpr hPA
    rw [min_eq_right h'.le] at b1
    rw [max_eq_left h'.le] at b2
    exact ⟨b2, b1⟩
  · rintro ⟨h1, h2⟩
    have := hlt.mp (h2.trans h1)
    linarith

/-! ### C38 -/

/-- **C38.** Whatever the LP solver, sampler, scheduler and set order do: every returned partition is the canonical form
of an input (with the requested number of communities), its gamma estimate is a real number in `[γ₀, γf]`, and at that
resolution no such input has larger modularity. -/
theorem c38_sound (he : SoundPruneEnv env) (hG : G.WF) (hp : ∀ p ∈ parts, p.length = G.vcount)
    (h : pruneToStable env G (.memberships parts) γ₀ γf restrict st = (some (.ok (out, G')) : Option _)) :
    ∀ c ∈ out, (∃ p, Candidate parts restrict p ∧ sortedTuple p = .ok c) ∧
      ∃ γ, gammaEstimate env.test G c = .ok (some (.fin γ), G') ∧ γ₀ ≤ γ ∧ γ ≤ γf ∧
        ∀ q, Candidate parts restrict q → modularity G γ q ≤ modularity G γ c := by
  obtain ⟨ps, ⟨hnd, hps⟩, ranges, hch, hest, hsub, hout⟩ := pruneToStable_facts he h
  have hlen : ∀ c ∈ ps, c.length = G.vcount := by
    intro c hc
    obtain ⟨p, hpc, rfl⟩ := (hps c).mp hc
    rw [canon_length]; exact hp p hpc.1
  intro c hc
  obtain ⟨r, hr, rfl, γ, hl, hu, hg⟩ := (hout c).mp hc
  obtain ⟨-, -, -, hmem, hiff⟩ := c17_ranges_correct he.toSoundEnv hG hlen hch r hr
  obtain ⟨p, hpc, hpr⟩ := (hps _).mp hmem
  obtain ⟨⟨w1, w2⟩, hopt⟩ := (hiff γ).mp ⟨hl, hu⟩
  refine ⟨⟨p, hpc, by rw [sortedTuple_eq, hpr]⟩, γ, hg, w1, w2, ?_⟩
  intro q hq
  rw [← modularity_canon (hp q hq.1)]
  exact hopt _ ((hps _).mpr ⟨q, hq, rfl⟩)

/-- **C38.** No partition is returned twice; two returned partitions never have the same modularity at every
resolution. -/
theorem c38_no_duplicates (he : SoundPruneEnv env) (hG : G.WF) (hp : ∀ p ∈ parts, p.length = G.vcount)
    (h : pruneToStable env G (.memberships parts) γ₀ γf restrict st = (some (.ok (out, G')) : Option _)) :
    out.Nodup ∧ out.Pairwise fun c d => ¬ SameModularity G c d := by
  obtain ⟨ps, ⟨hnd, hps⟩, ranges, hch, hest, hsub, hout⟩ := pruneToStable_facts he h
  have hlen : ∀ c ∈ ps, c.length = G.vcount := by
    intro c hc
    obtain ⟨p, hpc, rfl⟩ := (hps c).mp hc
    rw [canon_length]; exact hp p hpc.1
  have hpw : (ranges.map fun r => r.2.2).Pairwise fun c d => ¬ SameModularity G c d := by
    rw [List.pairwise_map]
    refine (c20_no_duplicates he.toSoundEnv hG hlen hch).2.imp ?_
    rintro r s ⟨γ, hne⟩ hs
    exact hne (hs γ)
  have := hpw.sublist hsub
  exact ⟨this.imp fun hn => by rintro rfl; exact hn fun _ => rfl, this⟩

/-- **C38 (unweighted undirected graphs).** The estimate at which a returned partition is optimal is the logarithmic mean
of `A / P` and `(2m - A) / (2m - P)`, where `A = ∑ A_ij δ`, `P = ∑ k_i k_j / 2m δ` of that partition. -/
theorem c38_estimate_formula (he : SoundPruneEnv env) (hG : G.WF) (hd : G.directed = false) (hm : 0 < G.ecount)
    (hw : CountsAsUnweighted env.test G) (hp : ∀ p ∈ parts, p.length = G.vcount)
    (h : pruneToStable env G (.memberships parts) γ₀ γf restrict st = (some (.ok (out, G')) : Option _)) :
    ∀ c ∈ out, ∃ γ, γ = logMean (withinAdj G c / withinNull G c)
        ((2 * G.ecount - withinAdj G c) / (2 * G.ecount - withinNull G c)) ∧
      γ₀ ≤ γ ∧ γ ≤ γf ∧ ∀ q, Candidate parts restrict q → modularity G γ q ≤ modularity G γ c := by
  intro c hc
  obtain ⟨⟨p, hpc, hpr⟩, γ, hg, w1, w2, hopt⟩ := c38_sound he hG hp h c hc
  rw [sortedTuple_eq] at hpr
  obtain rfl := Except.ok.inj hpr
  have hE : HasEstimate env.test G (canon p) γ := ⟨canon p, G', by rw [sortedTuple_eq, canon_idem], hg⟩
  rw [hasEstimate_unweighted hG hd hm hw (by rw [canon_length]; exact hp p hpc.1)] at hE
  exact ⟨γ, hE.2.2.2.2, w1, w2, hopt⟩

/-! ### C39 -/

/-- The general form of C39–C42: a candidate `p` such that all candidates with the same modularity everywhere have the same
estimate is returned, up to such a candidate, iff it is `Stable` among the candidates. -/
theorem returned_iff_stable (he : SoundPruneEnv env) (hG : G.WF) (hp : ∀ p ∈ parts, p.length = G.vcount)
    (h : pruneToStable env G (.memberships parts) γ₀ γf restrict st = (some (.ok (out, G')) : Option _))
    {p : List α} (hpc : Candidate parts restrict p)
    (hest : ∀ q, Candidate parts restrict q → SameModularity G q p →
      ∀ γ, HasEstimate env.test G q γ ↔ HasEstimate env.test G p γ) :
    (∃ c ∈ out, SameModularity G p c) ↔ Stable env.test G (Candidate parts restrict) γ₀ γf p := by
  obtain ⟨ps, ⟨hnd, hps⟩, ranges, hch, hG', hsub, hout⟩ := pruneToStable_facts he h
  have hlen : ∀ c ∈ ps, c.length = G.vcount := by
    intro c hc
    obtain ⟨p, hpc, rfl⟩ := (hps c).mp hc
    rw [canon_length]; exact hp p hpc.1
  have hcan : ∀ q, Candidate parts restrict q → canon q ∈ ps := fun q hq => (hps _).mpr ⟨q, hq, rfl⟩
  have hmc : ∀ q, Candidate parts restrict q → ∀ γ, modularity G γ (canon q) = modularity G γ q :=
    fun q hq γ => modularity_canon (hp q hq.1) γ
  constructor
  · rintro ⟨c, hc, hsame⟩
    obtain ⟨r, hr, rfl, γ, hl, hu, hg⟩ := (hout c).mp hc
    obtain ⟨l1, l2, l3, hmem, hiff⟩ := c17_ranges_correct he.toSoundEnv hG hlen hch r hr
    obtain ⟨q, hq, hqr⟩ := (hps _).mp hmem
    obtain ⟨⟨w1, w2⟩, hopt⟩ := (hiff γ).mp ⟨hl, hu⟩
    refine ⟨⟨(r.1 + r.2.1) / 2, by linarith, by linarith, ?_⟩, γ, ?_, w1, w2, ?_⟩
    · intro q' hq' hne
      have := c20_returned_strictly_optimal he.toSoundEnv hG hlen hch r hr ((r.1 + r.2.1) / 2) (by linarith)
        (by linarith) (canon q') (hcan q' hq') (by
          by_contra hcon
          push Not at hcon
          exact hne fun γ' => by rw [← hmc q' hq', hcon γ', hsame γ'])
      rw [hsame, ← hmc q' hq']; exact this
    · refine (hest q hq (fun γ' => ?_) γ).mp ⟨canon q, G', sortedTuple_eq q, by rw [hqr]; exact hg⟩
      rw [← hmc q hq, hqr, hsame]
    · intro q' hq'
      rw [hsame, ← hmc q' hq']
      exact hopt _ (hcan q' hq')
  · rintro ⟨⟨g, g1, g2, hbest⟩, γ, hγ, w1, w2, hopt⟩
    have hne : ps ≠ [] := List.ne_nil_of_mem (hcan p hpc)
    obtain ⟨r, hr, r1, r2, r3⟩ := c18_ranges_cover he.toSoundEnv hG hlen hne hch g1.le g2.le
    obtain ⟨-, -, -, hmem, hiff⟩ := c17_ranges_correct he.toSoundEnv hG hlen hch r hr
    obtain ⟨q, hq, hqr⟩ := (hps _).mp hmem
    have hsame : SameModularity G q p := by
      by_contra hn
      have h1 := hbest q hq hn
      have h2 := r3 _ (hcan p hpc)
      rw [hmc p hpc, ← hqr, hmc q hq] at h2
      linarith
    have hpr : SameModularity G p r.2.2 := fun γ' => by rw [← hqr, hmc q hq, hsame γ']
    refine ⟨r.2.2, (hout _).mpr ⟨r, hr, rfl, γ, ?_⟩, hpr⟩
    have hin := (hiff γ).mpr ⟨⟨w1, w2⟩, fun c hc => by
      obtain ⟨q', hq', rfl⟩ := (hps c).mp hc
      rw [hmc q' hq', ← hpr γ]
      exact hopt q' hq'⟩
    refine ⟨hin.1, hin.2, ?_⟩
    obtain ⟨c, G₁, hc, hg⟩ := (hest q hq hsame γ).mpr hγ
    rw [sortedTuple_eq] at hc
    obtain rfl := Except.ok.inj hc
    rw [hqr] at hg
    obtain ⟨e, hG1⟩ := hG' r hr
    rw [hg] at hG1
    rw [hg, (Prod.mk.inj (Except.ok.inj hG1)).2]

/-- **C39.** Exact characterisation of the result for an input with coefficients of its own: the canonical form of a
candidate is returned iff the candidate is stable, i.e. it beats every other candidate somewhere strictly inside the
window and no candidate beats it at its own estimate, which lies in the window. -/
theorem c39_unique_coefficients (he : SoundPruneEnv env) (hG : G.WF) (hp : ∀ p ∈ parts, p.length = G.vcount)
    (h : pruneToStable env G (.memberships parts) γ₀ γf restrict st = (some (.ok (out, G')) : Option _))
    {p : List α} (hpc : Candidate parts restrict p) {c : List Nat} (hpr : sortedTuple p = .ok c)
    (hdist : ∀ q, Candidate parts restrict q → SameModularity G q p → SamePartition q p) :
    c ∈ out ↔ Stable env.test G (Candidate parts restrict) γ₀ γf p := by
  have hest : ∀ q, Candidate parts restrict q → SameModularity G q p →
      ∀ γ, HasEstimate env.test G q γ ↔ HasEstimate env.test G p γ := by
    intro q hqc hs γ
    have : sortedTuple q = sortedTuple p := by
      rw [sortedTuple_eq, sortedTuple_eq, (canon_eq_iff q p).mpr (hdist q hqc hs)]
    unfold HasEstimate
    rw [this]
  rw [sortedTuple_eq] at hpr
  obtain rfl := Except.ok.inj hpr
  rw [← returned_iff_stable he hG hp h hpc hest]
  constructor
  · intro hc
    exact ⟨_, hc, fun γ => (modularity_canon (hp p hpc.1) γ).symm⟩
  · rintro ⟨c', hc', hs⟩
    obtain ⟨⟨q, hqc, hqr⟩, -⟩ := c38_sound he hG hp h c' hc'
    rw [sortedTuple_eq] at hqr
    obtain rfl := Except.ok.inj hqr
    have hpq : SamePartition q p := hdist q hqc fun γ => by rw [hs γ, modularity_canon (hp q hqc.1)]
    rw [← (canon_eq_iff q p).mpr hpq]
    exact hc'

/-- **C39.** If different candidates have different coefficients, the result is exactly the set of canonical forms of the
stable candidates. -/
theorem c39_characterisation (he : SoundPruneEnv env) (hG : G.WF) (hp : ∀ p ∈ parts, p.length = G.vcount)
    (hdist : ∀ p q, Candidate parts restrict p → Candidate parts restrict q → SameModularity G p q → SamePartition p q)
    (h : pruneToStable env G (.memberships parts) γ₀ γf restrict st = (some (.ok (out, G')) : Option _)) (c : List Nat) :
    c ∈ out ↔ ∃ p, Candidate parts restrict p ∧ sortedTuple p = .ok c ∧
      Stable env.test G (Candidate parts restrict) γ₀ γf p := by
  constructor
  · intro hc
    obtain ⟨⟨p, hpc, hpr⟩, -⟩ := c38_sound he hG hp h c hc
    exact ⟨p, hpc, hpr, (c39_unique_coefficients he hG hp h hpc hpr fun q hq => hdist q p hq hpc).mp hc⟩
  · rintro ⟨p, hpc, hpr, hst⟩
    exact (c39_unique_coefficients he hG hp h hpc hpr fun q hq => hdist q p hq hpc).mpr hst

/-- **C39 (completeness, any coefficients, unweighted undirected graph).** A candidate whose estimate lies strictly
inside the window and which is strictly better there than every candidate of different modularity is returned, up to a
candidate with exactly the same modularity at all resolutions. -/
theorem c39_complete (he : SoundPruneEnv env) (hG : G.WF) (hd : G.directed = false) (hm : 0 < G.ecount)
    (hw : CountsAsUnweighted env.test G) (hp : ∀ p ∈ parts, p.length = G.vcount)
    (h : pruneToStable env G (.memberships parts) γ₀ γf restrict st = (some (.ok (out, G')) : Option _))
    {p : List α} (hpc : Candidate parts restrict p) {γ : ℝ} (hγ : HasEstimate env.test G p γ) (h0 : γ₀ < γ) (hf : γ < γf)
    (hbest : ∀ q, Candidate parts restrict q → ¬ SameModularity G q p → modularity G γ q < modularity G γ p) :
    ∃ c ∈ out, SameModularity G p c := by
  refine (returned_iff_stable he hG hp h hpc fun q hq' hs γ =>
    same_estimates hG hd hm hw (hp q hq'.1) (hp p hpc.1) hs).mpr
    ⟨⟨γ, h0, hf, hbest⟩, γ, hγ, h0.le, hf.le, fun q hq => ?_⟩
  by_cases hs : SameModularity G q p
  · exact (hs γ).le
  · exact (hbest q hq hs).le

/-- **C39 (the pipeline returns).** With an exact LP solver, an undirected graph in which every vertex has an edge,
positive weights if igraph reports weights, and a non-empty window, pruning returns; no exception is raised. -/
theorem c39_returns (he : SoundPruneEnv env) (hx : ExactEnv env.toChampEnv) (hG : G.WF) (hd : G.directed = false)
    (hv : 0 < G.vcount) (hiso : ∀ v < G.vcount, ∃ e ∈ G.edges, e.1 = v ∨ e.2 = v)
    (hw : env.test G = true → ∃ ws, G.weight = some ws ∧ ∀ w ∈ ws, 0 < w)
    (hp : ∀ p ∈ parts, p.length = G.vcount) (hγ : γ₀ < γf) (restrict : Option Nat) (st : Bool) :
    ∃ out G', pruneToStable env G (.memberships parts) γ₀ γf restrict st = (some (.ok (out, G')) : Option _) := by
  have hm : 0 < G.ecount := by
    obtain ⟨e, he', -⟩ := hiso 0 hv
    exact List.length_pos_of_mem he'
  obtain ⟨G₁, hens, hWF, ws, hws, hpos⟩ : ∃ G₁, ensureWeight env.test G.vcount G = .ok G₁ ∧ G₁.WF ∧
      ∃ ws, G₁.weight = some ws ∧ ∀ w ∈ ws, 0 < w := by
    unfold ensureWeight
    by_cases ht : env.test G = true
    · obtain ⟨ws, h1, h2⟩ := hw ht
      exact ⟨G, by rw [if_pos ht], hG, ws, h1, h2⟩
    · refine ⟨{ G with weight := some (List.replicate G.edges.length 1) }, by rw [if_neg ht, setEsWeight_ones hv],
        ⟨hG.1, ?_⟩, List.replicate G.edges.length 1, rfl, ?_⟩
      · intro ws h; rw [← Option.some.inj h]; simp
      · intro w hw'; rw [List.eq_of_mem_replicate hw']; exact one_pos
  obtain ⟨v1, v2, v3⟩ := ensureWeight_vcount hens
  have hgam : ∀ p : List α, p.length = G.vcount → ∃ e, gammaEstimate env.test G (canon p) = .ok (e, G₁) := by
    intro p hp
    obtain ⟨r, hr⟩ := c25_no_isolated_vertices hWF hws hpos (c := canon p) (by rw [canon_length, hp, v1])
      (K := p.dedup.length) (canon_mem_iff p) (by rw [v1]; exact hv) (by rw [v1, v2]; exact hiso)
    refine ⟨gammaFromParameters r.1 r.2, ?_⟩
    unfold gammaEstimate
    rw [hens, Py.ok_bind]
    unfold leidenPartWithMembership
    rw [if_pos (by rw [canon_length, hp, v1]), Py.ok_bind, hr]
    rfl
  have hests : ∀ (ranges : List (ℝ × ℝ × List Nat)) (G₀ : Graph ℝ),
      (∀ r ∈ ranges, ∃ e, gammaEstimate env.test G₀ r.2.2 = .ok (e, G₁)) →
      ensureWeight env.test G₀.vcount G₀ = .ok G₁ →
      ∃ es G₂, rangesToGammaEstimates env.test G₀ ranges = .ok (es, G₂) := by
    intro ranges
    induction ranges with
    | nil => intro G₀ _ _; exact ⟨_, _, rfl⟩
    | cons r rest ih =>
      intro G₀ hr hG₀
      obtain ⟨e, he'⟩ := hr r (by simp)
      have hth := gammaEstimate_thread hG₀
      obtain ⟨es, G₂, hrest⟩ := ih G₁
        (fun r' hr' => by rw [hth]; exact hr r' (List.mem_cons_of_mem _ hr'))
        (by rw [(ensureWeight_vcount hG₀).1]; exact ensureWeight_idem hG₀)
      refine ⟨(r.1, r.2.1, r.2.2, e) :: es, G₂, ?_⟩
      unfold rangesToGammaEstimates
      rw [he', Py.ok_bind, hrest]; rfl
  have hcan : ∀ c ∈ env.setOrder (parts.map canon), canon c = c ∧ c.length = G.vcount ∧ ∃ p ∈ parts, canon p = c := by
    intro c hc
    rw [he.setMem] at hc
    obtain ⟨p, hpp, rfl⟩ := List.mem_map.mp hc
    exact ⟨canon_idem p, by rw [canon_length]; exact hp p hpp, p, hpp, rfl⟩
  obtain ⟨ps, hps, hsub⟩ : ∃ ps, restrictParts env.setOrder restrict (env.setOrder (parts.map canon)) = .ok ps ∧
      ∀ c ∈ ps, c ∈ env.setOrder (parts.map canon) := by
    cases restrict with
    | none => exact ⟨_, rfl, fun c h => h⟩
    | some K =>
      refine ⟨_, restrictParts_ok (fun c hc => (hcan c hc).1) (fun c hc hn => ?_), fun c hc => ?_⟩
      · have := (hcan c hc).2.1
        rw [hn] at this
        simp at this
        omega
      · rw [he.setMem] at hc
        exact (List.mem_filter.mp hc).1
  unfold pruneToStable
  by_cases hne : ps.length = 0
  · refine ⟨[], G, ?_⟩
    rw [Run.bind_ok]
    refine ⟨_, Run.ofPy_ok.mpr (canonicalParts_ok _ parts), ?_⟩
    rw [Run.bind_ok]
    refine ⟨ps, Run.ofPy_ok.mpr hps, ?_⟩
    rw [if_pos hne]; rfl
  · obtain ⟨ranges, hch⟩ := c17_returns hx hG hd hm (parts := ps) (fun c hc => (hcan c (hsub c hc)).2.1)
      (fun h => hne (by rw [h]; rfl)) hγ st
    have hmem := c17_ranges_correct he.toSoundEnv hG (fun c hc => (hcan c (hsub c hc)).2.1) hch
    obtain ⟨es, G₂, hes⟩ := hests ranges G (fun r hr => by
      obtain ⟨p, hpp, hpr⟩ := (hcan _ (hsub _ (hmem r hr).2.2.2.1)).2.2
      rw [← hpr]; exact hgam p (hp p hpp)) hens
    refine ⟨stablePartitions2D es, G₂, ?_⟩
    rw [Run.bind_ok]
    refine ⟨_, Run.ofPy_ok.mpr (canonicalParts_ok _ parts), ?_⟩
    rw [Run.bind_ok]
    refine ⟨ps, Run.ofPy_ok.mpr hps, ?_⟩
    rw [if_neg hne, Run.bind_ok]
    refine ⟨ranges, hch, ?_⟩
    rw [Run.bind_ok]
    exact ⟨_, Run.ofPy_ok.mpr hes, rfl⟩

/-! ### C40–C42 -/

theorem Stable_transfer {δ ε : Type} [LinearOrder δ] [LinearOrder ε] {test : Graph ℝ → Bool} {cand : List α → Prop}
    {cand' : List β → Prop} {p : List δ} {p' : List ε} (hs : SamePartition p p') (hlen : p.length = G.vcount)
    (hc : ∀ q', cand' q' → ∃ q, cand q ∧ SameModularity G q q') (h : Stable test G cand γ₀ γf p) :
    Stable test G cand' γ₀ γf p' := by
  have hm : ∀ γ, modularity G γ p = modularity G γ p' := modularity_same hs hlen
  obtain ⟨⟨g, g1, g2, hb⟩, γ, ⟨c, G₁, hcp, hg⟩, w1, w2, hopt⟩ := h
  refine ⟨⟨g, g1, g2, ?_⟩, γ, ⟨c, G₁, ?_, hg⟩, w1, w2, ?_⟩
  · intro q' hq' hn
    obtain ⟨q, hq, hqq⟩ := hc q' hq'
    rw [← hqq, ← hm]
    exact hb q hq fun hs' => hn fun γ' => by rw [← hqq, hs', hm]
  · rw [← hcp, sortedTuple_eq, sortedTuple_eq, (canon_eq_iff p p').mpr hs]
  · intro q' hq'
    obtain ⟨q, hq, hqq⟩ := hc q' hq'
    rw [← hqq, ← hm]
    exact hopt q hq

theorem candidate_same {p : List α} {q : List β} (hp : Candidate parts restrict p) (hq : q ∈ parts')
    (hs : SamePartition p q) : Candidate parts' restrict q :=
  ⟨hq, fun K hK => by rw [← dedup_length_same hs]; exact hp.2 K hK⟩

/-- **C40.** Two runs on collections containing the same partitions – whatever the labels, repetitions, order, set
iteration order, solver, schedule and threading – return the same set, provided different candidates have different
coefficients. -/
theorem c40_labels_duplicates_order (he : SoundPruneEnv env) (he' : SoundPruneEnv env') (htest : env.test = env'.test)
    (hG : G.WF) (hp : ∀ p ∈ parts, p.length = G.vcount) (hp' : ∀ p ∈ parts', p.length = G.vcount)
    (h12 : ∀ p ∈ parts, ∃ q ∈ parts', SamePartition p q) (h21 : ∀ q ∈ parts', ∃ p ∈ parts, SamePartition p q)
    (hdist : ∀ p q, Candidate parts restrict p → Candidate parts restrict q → SameModularity G p q → SamePartition p q)
    (h : pruneToStable env G (.memberships parts) γ₀ γf restrict st = (some (.ok (out, G')) : Option _))
    (h' : pruneToStable env' G (.memberships parts') γ₀ γf restrict st' = (some (.ok (out', G'')) : Option _)) :
    ∀ c, c ∈ out ↔ c ∈ out' := by
  have hdist' : ∀ p q, Candidate parts' restrict p → Candidate parts' restrict q → SameModularity G p q →
      SamePartition p q := by
    intro p q hpc hqc hs
    obtain ⟨a, ha, hap⟩ := h21 p hpc.1
    obtain ⟨b, hb, hbq⟩ := h21 q hqc.1
    have := hdist a b (candidate_same hpc ha hap.symm) (candidate_same hqc hb hbq.symm) fun γ => by
      rw [modularity_same hap (hp a ha), modularity_same hbq (hp b hb), hs γ]
    exact (hap.symm.trans this).trans hbq
  intro c
  rw [c39_characterisation he hG hp hdist h c, c39_characterisation he' hG hp' hdist' h' c, htest]
  constructor
  · rintro ⟨p, hpc, hc, hst⟩
    obtain ⟨q, hq, hs⟩ := h12 p hpc.1
    refine ⟨q, candidate_same hpc hq hs, ?_, Stable_transfer hs (hp p hpc.1) ?_ hst⟩
    · rw [← hc, sortedTuple_eq, sortedTuple_eq, (canon_eq_iff p q).mpr hs]
    · intro q' hq'
      obtain ⟨p', hp'', hs'⟩ := h21 q' hq'.1
      exact ⟨p', candidate_same hq' hp'' hs'.symm, modularity_same hs' (hp p' hp'')⟩
  · rintro ⟨q, hqc, hc, hst⟩
    obtain ⟨p, hpp, hs⟩ := h21 q hqc.1
    refine ⟨p, candidate_same hqc hpp hs.symm, ?_, Stable_transfer hs.symm (hp' q hqc.1) ?_ hst⟩
    · rw [← hc, sortedTuple_eq, sortedTuple_eq, (canon_eq_iff p q).mpr hs]
    · intro q' hq'
      obtain ⟨p', hp'', hs'⟩ := h12 q' hq'.1
      exact ⟨p', candidate_same hq' hp'' hs', modularity_same hs'.symm (hp' p' hp'')⟩

/-- **C40 (any coefficients).** On unweighted undirected graphs the results of two such runs are equal up to partitions
with exactly the same modularity at every resolution. -/
theorem c40_up_to_coefficients (he : SoundPruneEnv env) (he' : SoundPruneEnv env') (htest : env.test = env'.test)
    (hG : G.WF) (hd : G.directed = false) (hm : 0 < G.ecount) (hw : CountsAsUnweighted env.test G)
    (hp : ∀ p ∈ parts, p.length = G.vcount) (hp' : ∀ p ∈ parts', p.length = G.vcount)
    (h12 : ∀ p ∈ parts, ∃ q ∈ parts', SamePartition p q) (h21 : ∀ q ∈ parts', ∃ p ∈ parts, SamePartition p q)
    (h : pruneToStable env G (.memberships parts) γ₀ γf restrict st = (some (.ok (out, G')) : Option _))
    (h' : pruneToStable env' G (.memberships parts') γ₀ γf restrict st' = (some (.ok (out', G'')) : Option _)) :
    ∀ c ∈ out, ∃ c' ∈ out', SameModularity G c c' := by
  intro c hc
  obtain ⟨⟨p, hpc, hpr⟩, -⟩ := c38_sound he hG hp h c hc
  rw [sortedTuple_eq] at hpr
  obtain rfl := Except.ok.inj hpr
  have hst := (returned_iff_stable he hG hp h hpc fun q hq' hs γ =>
    same_estimates hG hd hm hw (hp q hq'.1) (hp p hpc.1) hs).mp
    ⟨_, hc, fun γ => (modularity_canon (hp p hpc.1) γ).symm⟩
  obtain ⟨q, hq, hs⟩ := h12 p hpc.1
  have hst' : Stable env'.test G (Candidate parts' restrict) γ₀ γf q := by
    rw [← htest]
    refine Stable_transfer hs (hp p hpc.1) ?_ hst
    intro q' hq'
    obtain ⟨p', hp'', hs'⟩ := h21 q' hq'.1
    exact ⟨p', candidate_same hq' hp'' hs'.symm, modularity_same hs' (hp p' hp'')⟩
  obtain ⟨c', hc', hs'⟩ := (returned_iff_stable he' hG hp' h' (candidate_same hpc hq hs) fun q' hq' hs γ =>
    same_estimates hG hd hm (htest ▸ hw) (hp' q' hq'.1) (hp' q hq) hs).mpr hst'
  refine ⟨c', hc', fun γ => ?_⟩
  rw [modularity_canon (hp p hpc.1), modularity_same hs (hp p hpc.1), hs']

/-- **C41.** Removing competitors never removes a result: a returned partition that is still among a smaller collection
is returned from it, up to a partition with exactly the same modularity (unweighted undirected graphs). -/
theorem c41_fewer_competitors (he : SoundPruneEnv env) (he' : SoundPruneEnv env') (htest : env.test = env'.test)
    (hG : G.WF) (hd : G.directed = false) (hm : 0 < G.ecount) (hw : CountsAsUnweighted env.test G)
    (hp : ∀ p ∈ parts, p.length = G.vcount) {sub : List (List α)} (hsub : ∀ p ∈ sub, p ∈ parts)
    (h : pruneToStable env G (.memberships parts) γ₀ γf restrict st = (some (.ok (out, G')) : Option _))
    (h' : pruneToStable env' G (.memberships sub) γ₀ γf restrict st' = (some (.ok (out', G'')) : Option _))
    {p : List α} (hps : p ∈ sub) {c : List Nat} (hc : c ∈ out) (hpc : sortedTuple p = .ok c) :
    ∃ c' ∈ out', SameModularity G c c' := by
  rw [sortedTuple_eq] at hpc
  obtain rfl := Except.ok.inj hpc
  obtain ⟨⟨p₁, hc₁, hr₁⟩, -⟩ := c38_sound he hG hp h _ hc
  rw [sortedTuple_eq] at hr₁
  have hsame : SamePartition p₁ p := (canon_eq_iff p₁ p).mp (Except.ok.inj hr₁)
  have hcand : Candidate parts restrict p := candidate_same hc₁ (hsub p hps) hsame
  have hcand' : Candidate sub restrict p := candidate_same hc₁ hps hsame
  have hst := (returned_iff_stable he hG hp h hcand fun q hq' hs γ =>
    same_estimates hG hd hm hw (hp q hq'.1) (hp p hcand.1) hs).mp
    ⟨_, hc, fun γ => (modularity_canon (hp p hcand.1) γ).symm⟩
  have hst' : Stable env'.test G (Candidate sub restrict) γ₀ γf p := by
    rw [← htest]
    exact Stable_transfer (SamePartition.refl p) (hp p hcand.1)
      (fun q' hq' => ⟨q', ⟨hsub q' hq'.1, hq'.2⟩, fun _ => rfl⟩) hst
  obtain ⟨c', hc', hs'⟩ := (returned_iff_stable he' hG (fun q hq => hp q (hsub q hq)) h' hcand' fun q hq' hs γ =>
    same_estimates hG hd hm (htest ▸ hw) (hp q (hsub q hq'.1)) (hp p hcand.1) hs).mpr hst'
  exact ⟨c', hc', fun γ => by rw [modularity_canon (hp p hcand.1), hs']⟩

/-- **C41.** With different coefficients, the returned partition itself survives the removal of competitors (directed and
weighted graphs included). -/
theorem c41_fewer_competitors_exact (he : SoundPruneEnv env) (he' : SoundPruneEnv env') (htest : env.test = env'.test)
    (hG : G.WF) (hp : ∀ p ∈ parts, p.length = G.vcount) {sub : List (List α)} (hsub : ∀ p ∈ sub, p ∈ parts)
    (hdist : ∀ p q, Candidate parts restrict p → Candidate parts restrict q → SameModularity G p q → SamePartition p q)
    (h : pruneToStable env G (.memberships parts) γ₀ γf restrict st = (some (.ok (out, G')) : Option _))
    (h' : pruneToStable env' G (.memberships sub) γ₀ γf restrict st' = (some (.ok (out', G'')) : Option _))
    {p : List α} (hps : p ∈ sub) {c : List Nat} (hc : c ∈ out) (hpc : sortedTuple p = .ok c) : c ∈ out' := by
  obtain ⟨p₁, hc₁, hr₁, hst⟩ := (c39_characterisation he hG hp hdist h c).mp hc
  have hsame : SamePartition p₁ p := by
    rw [← hpc, sortedTuple_eq, sortedTuple_eq] at hr₁
    exact (canon_eq_iff p₁ p).mp (Except.ok.inj hr₁)
  refine (c39_characterisation he' hG (fun q hq => hp q (hsub q hq))
    (fun p q hp' hq' => hdist p q ⟨hsub p hp'.1, hp'.2⟩ ⟨hsub q hq'.1, hq'.2⟩) h' c).mpr
    ⟨p, candidate_same hc₁ hps hsame, hpc, ?_⟩
  rw [← htest]
  exact Stable_transfer hsame (hp p₁ hc₁.1) (fun q' hq' => ⟨q', ⟨hsub q' hq'.1, hq'.2⟩, fun _ => rfl⟩) hst

/-- **C41.** Pruning is idempotent: pruning the result again (with the same window, and with the same or no restriction)
returns the same set – for every graph, with no assumption on the coefficients. -/
theorem c41_idempotent (he : SoundPruneEnv env) (he' : SoundPruneEnv env') (htest : env.test = env'.test)
    (hG : G.WF) (hp : ∀ p ∈ parts, p.length = G.vcount) (hr : restrict' = restrict ∨ restrict' = none)
    (h : pruneToStable env G (.memberships parts) γ₀ γf restrict st = (some (.ok (out, G')) : Option _))
    (h' : pruneToStable env' G (.memberships out) γ₀ γf restrict' st' = (some (.ok (out', G'')) : Option _)) :
    ∀ c, c ∈ out ↔ c ∈ out' := by
  have hsound := c38_sound he hG hp h
  have hcan : ∀ c ∈ out, canon c = c ∧ c.length = G.vcount ∧ Candidate out restrict' c := by
    intro c hc
    obtain ⟨⟨p, hpc, hpr⟩, -⟩ := hsound c hc
    rw [sortedTuple_eq] at hpr
    obtain rfl := Except.ok.inj hpr
    refine ⟨canon_idem p, by rw [canon_length]; exact hp p hpc.1, hc, ?_⟩
    rintro K hK
    rcases hr with rfl | rfl
    · rw [dedup_length_canon]; exact hpc.2 K hK
    · cases hK
  have hpw := (c38_no_duplicates he hG hp h).2
  have huniq : ∀ c ∈ out, ∀ d ∈ out, SameModularity G c d → c = d := by
    intro c hc d hd hs
    have hsymm : Std.Symm fun c d : List Nat => c = d ∨ ¬ SameModularity G c d :=
      ⟨fun a b hab => hab.imp Eq.symm fun hn hs => hn fun γ => (hs γ).symm⟩
    have hpw' : out.Pairwise fun c d => c = d ∨ ¬ SameModularity G c d := hpw.imp Or.inr
    exact (List.Pairwise.forall_of_forall (R := fun c d : List Nat => c = d ∨ ¬ SameModularity G c d)
      (fun _ _ => Or.inl rfl) hpw' hc hd).elim id fun hn => absurd hs hn
  have hdist' : ∀ p q, Candidate out restrict' p → Candidate out restrict' q → SameModularity G p q →
      SamePartition p q := by
    intro p q hpc hqc hs
    rw [huniq p hpc.1 q hqc.1 hs]
    exact SamePartition.refl q
  intro c
  rw [c39_characterisation he' hG (fun c hc => (hcan c hc).2.1) hdist' h' c]
  constructor
  · intro hc
    refine ⟨c, (hcan c hc).2.2, by rw [sortedTuple_eq, (hcan c hc).1], ?_⟩
    obtain ⟨ps, ⟨hnd, hps⟩, ranges, hch, hest, hsub, hout⟩ := pruneToStable_facts he h
    have hlen : ∀ c ∈ ps, c.length = G.vcount := by
      intro c hc
      obtain ⟨p, hpc, rfl⟩ := (hps c).mp hc
      rw [canon_length]; exact hp p hpc.1
    have hps' : ∀ q ∈ out, q ∈ ps := by
      intro q hq
      obtain ⟨r, hr', rfl, -⟩ := (hout q).mp hq
      exact (c17_ranges_correct he.toSoundEnv hG hlen hch r hr').2.2.2.1
    obtain ⟨r, hr', rfl, γ, hl, hu, hg⟩ := (hout c).mp hc
    obtain ⟨l1, l2, l3, hmem, hiff⟩ := c17_ranges_correct he.toSoundEnv hG hlen hch r hr'
    obtain ⟨⟨w1, w2⟩, hopt⟩ := (hiff γ).mp ⟨hl, hu⟩
    refine ⟨⟨(r.1 + r.2.1) / 2, by linarith, by linarith, ?_⟩, γ, ?_, w1, w2, ?_⟩
    · intro q hq hn
      refine c20_returned_strictly_optimal he.toSoundEnv hG hlen hch r hr' _ (by linarith) (by linarith) q
        (hps' q hq.1) ?_
      by_contra hcon
      push Not at hcon
      exact hn hcon
    · exact ⟨r.2.2, G', by rw [sortedTuple_eq, (hcan _ hc).1], by rw [← htest]; exact hg⟩
    · intro q hq; exact hopt q (hps' q hq.1)
  · rintro ⟨p, hpc, hpr, -⟩
    rw [sortedTuple_eq, (hcan p hpc.1).1] at hpr
    obtain rfl := Except.ok.inj hpr
    exact hpc.1

/-- **C42.** With `restrict_num_communities = K`, every returned partition has exactly `K` communities. -/
theorem c42_number_of_communities (he : SoundPruneEnv env) (hG : G.WF) (hp : ∀ p ∈ parts, p.length = G.vcount) {K : Nat}
    (h : pruneToStable env G (.memberships parts) γ₀ γf (some K) st = (some (.ok (out, G')) : Option _)) :
    ∀ c ∈ out, c.dedup.length = K := by
  intro c hc
  obtain ⟨⟨p, hpc, hpr⟩, -⟩ := c38_sound he hG hp h c hc
  rw [sortedTuple_eq] at hpr
  obtain rfl := Except.ok.inj hpr
  rw [dedup_length_canon]
  exact hpc.2 K rfl

/-- **C42.** … and the result is that of pruning only the `K`-community inputs without restriction (equal sets if
different candidates have different coefficients). -/
theorem c42_same_as_filtering (he : SoundPruneEnv env) (he' : SoundPruneEnv env') (htest : env.test = env'.test)
    (hG : G.WF) (hp : ∀ p ∈ parts, p.length = G.vcount) {K : Nat}
    (hdist : ∀ p q, Candidate parts (some K) p → Candidate parts (some K) q → SameModularity G p q → SamePartition p q)
    (h : pruneToStable env G (.memberships parts) γ₀ γf (some K) st = (some (.ok (out, G')) : Option _))
    (h' : pruneToStable env' G (.memberships (parts.filter fun p => decide (p.dedup.length = K))) γ₀ γf none st' =
      (some (.ok (out', G'')) : Option _)) :
    ∀ c, c ∈ out ↔ c ∈ out' := by
  have hc : Candidate (parts.filter fun p => decide (p.dedup.length = K)) none = Candidate parts (some K) := by
    funext p
    apply propext
    simp [Candidate]
  intro c
  rw [c39_characterisation he hG hp hdist h c,
    c39_characterisation he' hG (fun p hpp => hp p (List.mem_of_mem_filter hpp)) (by rw [hc]; exact hdist) h' c, hc, htest]

/-- **C42.** If no input takes part, the result is empty (and the graph untouched), whatever graph and window. -/
theorem c42_empty (he : SoundPruneEnv env) (hne : restrict ≠ none → ∀ p ∈ parts, p ≠ [])
    (hnone : ∀ p, ¬ Candidate parts restrict p) :
    pruneToStable env G (.memberships parts) γ₀ γf restrict st = (some (.ok ([], G)) : Option _) := by
  have hcan : ∀ c ∈ env.setOrder (parts.map canon), ∃ p ∈ parts, canon p = c := by
    intro c hc
    rw [he.setMem] at hc
    exact List.mem_map.mp hc
  obtain ⟨ps, hps⟩ : ∃ ps, restrictParts env.setOrder restrict (env.setOrder (parts.map canon)) = .ok ps := by
    cases hr : restrict with
    | none => exact ⟨_, rfl⟩
    | some K =>
      refine ⟨_, restrictParts_ok (fun c hc => ?_) (fun c hc hn => ?_)⟩
      · obtain ⟨p, -, rfl⟩ := hcan c hc; exact canon_idem p
      · obtain ⟨p, hpp, rfl⟩ := hcan c hc
        have := congrArg List.length hn
        rw [canon_length] at this
        exact hne (by rw [hr]; simp) p hpp (List.length_eq_zero_iff.mp this)
  have hnil : ps = [] := by
    rw [List.eq_nil_iff_forall_not_mem]
    intro c hc
    obtain ⟨p, hpc, -⟩ := ((candidates_ok he (canonicalParts_ok _ parts) hps).2 c).mp hc
    exact hnone p hpc
  subst hnil
  unfold pruneToStable
  rw [Run.bind_ok]
  refine ⟨_, Run.ofPy_ok.mpr (canonicalParts_ok _ parts), ?_⟩
  rw [Run.bind_ok]
  exact ⟨[], Run.ofPy_ok.mpr hps, rfl⟩

/-! ### Witnesses -/

/-- An environment meeting every contract: igraph denies that there are weights. -/
noncomputable def pruneEnv : PruneEnv where
  toChampEnv := exactEnv
  fsolve := fun _ x => x
  test := fun _ => false
  setOrder := fun l => l.dedup.reverse

theorem pruneEnv_sound : SoundPruneEnv pruneEnv where
  toSoundEnv := exactEnv_exact.toSoundEnv
  setNodup := fun l => List.nodup_reverse.mpr (List.nodup_dedup l)
  setMem := fun l x => by
    show x ∈ l.dedup.reverse ↔ x ∈ l
    rw [List.mem_reverse, List.mem_dedup]

/-- Three partitions of `gReal` with different coefficients. -/
def threeParts : List (List Nat) := [[4, 4, 4, 4, 4], [7, 7, 2, 2, 2], [4, 3, 2, 1, 0]]

example : ∃ out G', pruneToStable pruneEnv gReal (.memberships threeParts) 0 2 none false =
    (some (.ok (out, G')) : Option _) :=
  c39_returns pruneEnv_sound exactEnv_exact gReal_wf rfl (by decide) (by decide) (by intro h; cases h) (by decide)
    (by norm_num) none false

/-- the candidates of the example have pairwise different coefficients -/
theorem threeParts_distinct : ∀ p q, Candidate threeParts none p → Candidate threeParts none q →
    SameModularity gReal p q → SamePartition p q := by
  have hA : withinAdj gReal [4, 4, 4, 4, 4] = 10 ∧ withinAdj gReal [7, 7, 2, 2, 2] = 6 ∧
      withinAdj gReal [4, 3, 2, 1, 0] = 0 := by
    refine ⟨?_, ?_, ?_⟩ <;> simp [withinAdj, gReal, adj, Finset.sum_range_succ] <;> norm_num
  obtain ⟨h1, h2, h3⟩ := hA
  rintro p q ⟨hp, -⟩ ⟨hq, -⟩ hs
  have h0 := hs 0
  simp only [modularity_affine, zero_mul, sub_zero] at h0
  simp only [threeParts, List.mem_cons, List.not_mem_nil, or_false] at hp hq
  rcases hp with rfl | rfl | rfl <;> rcases hq with rfl | rfl | rfl <;>
    first
    | exact SamePartition.refl _
    | (exfalso; simp only [h1, h2, h3] at h0; norm_num at h0)

theorem gReal_coefs : withinAdj gReal [7, 7, 2, 2, 2] = 6 ∧ withinNull gReal [7, 7, 2, 2, 2] = 52 / 10 ∧
    withinAdj gReal [4, 4, 4, 4, 4] = 10 ∧ withinNull gReal [4, 4, 4, 4, 4] = 10 ∧
    withinAdj gReal [4, 3, 2, 1, 0] = 0 ∧ withinNull gReal [4, 3, 2, 1, 0] = 22 / 10 := by
  have r0 : rowSum gReal 0 = 2 := by decide
  have r1 : rowSum gReal 1 = 2 := by decide
  have r2 : rowSum gReal 2 = 2 := by decide
  have r3 : rowSum gReal 3 = 3 := by decide
  have r4 : rowSum gReal 4 = 1 := by decide
  have c0 : colSum gReal 0 = 2 := by decide
  have c1 : colSum gReal 1 = 2 := by decide
  have c2 : colSum gReal 2 = 2 := by decide
  have c3 : colSum gReal 3 = 3 := by decide
  have c4 : colSum gReal 4 = 1 := by decide
  have ht : total gReal = 10 := by decide
  have hv : gReal.vcount = 5 := rfl
  refine ⟨?_, ?_, ?_, ?_, ?_, ?_⟩
  · simp [withinAdj, gReal, adj, Finset.sum_range_succ]; norm_num
  · simp [withinNull, hv, r0, r1, r2, r3, r4, c0, c1, c2, c3, c4, ht, Finset.sum_range_succ]; norm_num
  · simp [withinAdj, gReal, adj, Finset.sum_range_succ]; norm_num
  · simp [withinNull, hv, r0, r1, r2, r3, r4, c0, c1, c2, c3, c4, ht, Finset.sum_range_succ]; norm_num
  · simp [withinAdj, gReal, adj, Finset.sum_range_succ]
  · simp [withinNull, hv, r0, r1, r2, r3, r4, c0, c1, c2, c3, c4, ht, Finset.sum_range_succ]; norm_num

/-- the two-community partition of the example is returned: the theorems are not about empty results -/
theorem threeParts_returned {out : List (List Nat)} {G' : Graph ℝ}
    (h : pruneToStable pruneEnv gReal (.memberships threeParts) 0 2 none false =
      (some (.ok (out, G')) : Option _)) : [0, 0, 1, 1, 1] ∈ out := by
  obtain ⟨hA, hP, hA1, hP1, hA0, hP0⟩ := gReal_coefs
  have hec : (gReal.ecount : ℝ) = 5 := by norm_num [gReal, Graph.ecount]
  have hE : HasEstimate pruneEnv.test gReal [7, 7, 2, 2, 2] (logMean (6 / (52 / 10)) ((10 - 6) / (10 - 52 / 10))) := by
    rw [hasEstimate_unweighted gReal_wf rfl (by decide) (by intro h; cases h) rfl, hA, hP, hec]
    refine ⟨by norm_num, by norm_num, by norm_num, by norm_num, by norm_num⟩
  obtain ⟨b1, b2⟩ := logMean_between (a := 6 / (52 / 10)) (b := (10 - 6) / (10 - 52 / 10)) (by norm_num) (by norm_num)
    (by norm_num)
  generalize logMean (6 / (52 / 10)) ((10 - 6) / (10 - 52 / 10)) = γ at *
  norm_num at b1 b2
  have hbest : ∀ q, Candidate threeParts none q → ¬ SameModularity gReal q [7, 7, 2, 2, 2] →
      modularity gReal γ q < modularity gReal γ [7, 7, 2, 2, 2] := by
    rintro q ⟨hq, -⟩ hn
    simp only [threeParts, List.mem_cons, List.not_mem_nil, or_false] at hq
    rcases hq with rfl | rfl | rfl
    · simp only [modularity_affine, hA, hP, hA1, hP1]; linarith
    · exact absurd (fun _ => rfl) hn
    · simp only [modularity_affine, hA, hP, hA0, hP0]; linarith
  refine (c39_characterisation pruneEnv_sound gReal_wf (by decide) threeParts_distinct h _).mpr
    ⟨[7, 7, 2, 2, 2], ⟨by decide, by simp⟩, by decide, ⟨γ, by linarith, by linarith, hbest⟩, γ, hE, by linarith,
      by linarith, fun q hq => ?_⟩
  by_cases hs : SameModularity gReal q [7, 7, 2, 2, 2]
  · exact (hs γ).le
  · exact (hbest q hq hs).le

end Verif.Props
