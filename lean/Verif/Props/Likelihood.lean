import Verif.Proofs.Likelihood
import Verif.Props.Prune
import Verif.Props.FixedPoint

/-!
# Property C83: what the gamma estimate means — modularity and the likelihood of the planted-partition model
-/

namespace Verif.Props
open Verif Verif.Spec Verif.Proofs Finset Real

variable {α β : Type} [LinearOrder α] [DecidableEq β] {G : Graph ℝ}

/-- **C83 (the SBM parameters are the maximum-likelihood parameters).** Positive edge weights, any membership of the
vertices for which `estimate_singlelayer_SBM_parameters` returns `(ω_in, ω_out)`: a pair of positive parameters maximises
the likelihood of the degree-corrected planted-partition model, and does so alone, exactly if it is this pair; when one of
the two returned values is 0 (and `gamma_estimate` returns `None`) there is no maximum-likelihood pair. -/
theorem c83_maximum_likelihood (hG : G.WF) {ws : List ℝ} (hw : G.weight = some ws) (hpos : ∀ w ∈ ws, 0 < w)
    {c : List Nat} (hc : c.length = G.vcount) {ωin ωout : ℝ}
    (hr : estimateSinglelayerSBM G c none = .ok (ωin, ωout)) (a b : ℝ) :
    MaximumLikelihood G.vcount (G.edges.zip ws) c a b ↔ 0 < ωin ∧ 0 < ωout ∧ a = ωin ∧ b = ωout := by
  have hends : EndsIn (G.edges.zip ws) G.vcount := fun e he => hG.1 e.1 (List.of_mem_zip he).1
  have hwt : wTotal (G.edges.zip ws) = ws.sum := by
    unfold wTotal
    congr 1
    exact List.map_snd_zip (by rw [hG.2 ws hw])
  have hpos' : ∀ e ∈ G.edges.zip ws, 0 < e.2 := fun e he => hpos _ (List.of_mem_zip he).2
  have hin0 : 0 ≤ wInside (G.edges.zip ws) c := by
    unfold wInside
    apply List.sum_nonneg
    intro x hx
    obtain ⟨e, he, rfl⟩ := List.mem_map.mp hx
    split
    · exact (hpos' e he).le
    · exact le_refl _
  have hin1 : wInside (G.edges.zip ws) c ≤ wTotal (G.edges.zip ws) := by
    unfold wInside wTotal
    apply List.sum_le_sum
    intro e he
    split
    · exact le_refl _
    · exact (hpos' e he).le
  have hadj0 : ∀ i j, 0 ≤ wAdj (G.edges.zip ws) i j := by
    intro i j
    unfold wAdj
    apply List.sum_nonneg
    intro x hx
    obtain ⟨e, he, rfl⟩ := List.mem_map.mp hx
    have := (hpos' e he).le
    split_ifs <;> linarith
  have hdeg0 : ∀ i, 0 ≤ wDegree G.vcount (G.edges.zip ws) i := fun i => Finset.sum_nonneg fun j _ => hadj0 i j
  have htwo0 : 0 ≤ wTwoM G.vcount (G.edges.zip ws) := Finset.sum_nonneg fun i _ => hdeg0 i
  have hnull0 : 0 ≤ nullInside G.vcount (G.edges.zip ws) c := by
    unfold nullInside
    refine Finset.sum_nonneg fun i _ => Finset.sum_nonneg fun j _ => ?_
    have := hdeg0 i; have := hdeg0 j
    split_ifs <;> positivity
  have hnull1 : nullInside G.vcount (G.edges.zip ws) c ≤ wTwoM G.vcount (G.edges.zip ws) := by
    rw [← nullTotal]
    unfold nullInside
    refine Finset.sum_le_sum fun i _ => Finset.sum_le_sum fun j _ => ?_
    have h1 := hdeg0 i; have h2 := hdeg0 j
    have : 0 ≤ wDegree G.vcount (G.edges.zip ws) i * wDegree G.vcount (G.edges.zip ws) j /
      wTwoM G.vcount (G.edges.zip ws) := by positivity
    split_ifs <;> linarith
  have hP := nullInside_eq hends hc
  have hA := pairsInside_eq hends c
  have hW := wTwoM_eq hends
  rw [hW] at htwo0 hnull1
  unfold MaximumLikelihood
  simp only [logLikelihood_eq]
  rw [estimateSinglelayerSBM_eq hG hc hw, ← hwt, ← hP] at hr
  rw [hA, hW]
  split at hr
  · cases hr
  rename_i h0
  split at hr
  · cases hr
  rename_i h1
  have hPpos : 0 < nullInside G.vcount (G.edges.zip ws) c := lt_of_le_of_ne hnull0 (Ne.symm h1)
  rw [two_poisson (by linarith) (by linarith) hPpos hnull1]
  have hWpos : 0 < 2 * wTotal (G.edges.zip ws) := lt_of_le_of_ne htwo0 (Ne.symm h0)
  split at hr
  · split at hr
    · cases hr
    · rename_i hne
      obtain ⟨e1, e2⟩ := Prod.mk.inj (Except.ok.inj hr)
      have hPW : nullInside G.vcount (G.edges.zip ws) c < 2 * wTotal (G.edges.zip ws) :=
        lt_of_le_of_ne hnull1 (fun h => hne (by linarith))
      rw [← e1, ← e2]
      constructor
      · rintro ⟨k1, k2, k3, rfl, rfl⟩
        exact ⟨div_pos k1 hPpos, div_pos (by linarith) (by linarith), rfl, rfl⟩
      · rintro ⟨k1, k2, rfl, rfl⟩
        refine ⟨?_, ?_, hPW, rfl, rfl⟩
        · by_contra hn
          have : 2 * wInside (G.edges.zip ws) c = 0 := by linarith
          rw [this, zero_div] at k1; exact lt_irrefl _ k1
        · by_contra hn
          have : 2 * wTotal (G.edges.zip ws) - 2 * wInside (G.edges.zip ws) c = 0 := by linarith
          rw [this, zero_div] at k2; exact lt_irrefl _ k2
  · rename_i hK
    obtain ⟨e1, e2⟩ := Prod.mk.inj (Except.ok.inj hr)
    constructor
    · rintro ⟨k1, k2, k3, rfl, rfl⟩
      exfalso
      have hall : wInside (G.edges.zip ws) c = wTotal (G.edges.zip ws) := by
        unfold wInside wTotal
        congr 1
        apply List.map_congr_left
        intro e he
        obtain ⟨l1, l2⟩ := hends e he
        rw [← hc] at l1 l2
        have b1 := lt_partLen (List.getElem_mem l1)
        have b2 := lt_partLen (List.getElem_mem l2)
        rw [List.getElem?_eq_getElem l1, List.getElem?_eq_getElem l2, if_pos]
        congr 1; omega
      rw [hall] at k2
      exact lt_irrefl _ k2
    · rintro ⟨-, k2, -⟩
      rw [← e2] at k2
      exact absurd k2 (lt_irrefl _)

/-- **C83 (equivalence).** Undirected unweighted graph, parameters `0 < ω_out < ω_in`, and `γ` the value
`gamma_estimate_from_parameters` returns for them: of two partitions the one with the larger modularity at resolution `γ`
is the more likely one.  With `ω_in < ω_out` it is the *less* likely one. -/
theorem c83_equivalence (hd : G.directed = false) {a b γ : ℝ} (hγ : gammaFromParameters a b = some (.fin γ))
    (p q : List β) :
    (b < a → (logLikelihood G.vcount (unitEdges G) p a b ≤ logLikelihood G.vcount (unitEdges G) q a b ↔
      modularity G γ p ≤ modularity G γ q)) ∧
    (a < b → (logLikelihood G.vcount (unitEdges G) p a b ≤ logLikelihood G.vcount (unitEdges G) q a b ↔
      modularity G γ q ≤ modularity G γ p)) := by
  obtain ⟨ha, hb, hne, rfl⟩ := ((c27_degenerate_estimates a b).2.2.1 γ).mp hγ
  have hl : log a ≠ log b := fun h => hne (log_injOn_pos ha hb h)
  rw [logLikelihood_modularity hd p hl, logLikelihood_modularity hd q hl]
  unfold logMean
  constructor
  · intro h
    have : log b < log a := log_lt_log hb h
    have hs : 0 < 1 / 2 * (log a - log b) := by linarith
    rw [add_le_add_iff_right]
    exact mul_le_mul_iff_right₀ hs
  · intro h
    have : log a < log b := log_lt_log ha h
    have hs : 1 / 2 * (log a - log b) < 0 := by linarith
    rw [add_le_add_iff_right]
    exact mul_le_mul_left_of_neg hs

variable {env : PruneEnv} {parts : List (List α)} {γ₀ γf : ℝ} {restrict : Option Nat} {st : Bool}
  {out : List (List Nat)} {G' : Graph ℝ}

/-- the parameters of a partition of an unweighted graph, written with its coefficients, are the maximum-likelihood pair -/
theorem mle_of_coefficients (hG : G.WF) (hd : G.directed = false) (hm : 0 < G.ecount) {c : List Nat}
    (hc : c.length = G.vcount) (hA0 : 0 < withinAdj G c) (hAW : withinAdj G c < 2 * G.ecount)
    (hPW : withinNull G c < 2 * G.ecount) :
    MaximumLikelihood G.vcount (unitEdges G) c (withinAdj G c / withinNull G c)
      ((2 * G.ecount - withinAdj G c) / (2 * G.ecount - withinNull G c)) := by
  have hPpos := withinNull_pos (F := ℝ) hG hd hm hc
  have htot : (total G : ℝ) = 2 * G.ecount := by rw [total_eq hG]; simp [hd]
  unfold MaximumLikelihood
  simp only [logLikelihood_eq, pairsInside_unit hd, nullInside_unit hd, wTwoM_unit hd, htot]
  exact (two_poisson hA0.le hAW.le hPpos hPW.le).mpr ⟨hA0, hAW, hPW, rfl, rfl⟩

/-- **C83 (what pruning returns).** Unweighted undirected graph; a partition `c` returned by
`prune_to_stable_partitions`.  There are parameters `(ω_in, ω_out)` — the maximum-likelihood ones for `c` — whose gamma
estimate is that of `c`, and: if `ω_in > ω_out`, no candidate is more likely than `c` under them, so that `c` and its
parameters maximise the likelihood in each of the two arguments; if `ω_in < ω_out`, no candidate is *less* likely. -/
theorem c83_stable_partitions (he : SoundPruneEnv env) (hG : G.WF) (hd : G.directed = false) (hm : 0 < G.ecount)
    (hw : CountsAsUnweighted env.test G) (hp : ∀ p ∈ parts, p.length = G.vcount)
    (h : pruneToStable env G (.memberships parts) γ₀ γf restrict st = (some (.ok (out, G')) : Option _)) :
    ∀ c ∈ out, ∃ a b γ, a ≠ b ∧ MaximumLikelihood G.vcount (unitEdges G) c a b ∧
      gammaFromParameters a b = some (.fin γ) ∧ gammaEstimate env.test G c = .ok (some (.fin γ), G') ∧
      (b < a → ∀ q, Candidate parts restrict q →
        logLikelihood G.vcount (unitEdges G) q a b ≤ logLikelihood G.vcount (unitEdges G) c a b) ∧
      (a < b → ∀ q, Candidate parts restrict q →
        logLikelihood G.vcount (unitEdges G) c a b ≤ logLikelihood G.vcount (unitEdges G) q a b) := by
  intro c hc
  obtain ⟨⟨p, hpc, hpr⟩, γ, hg, w1, w2, hopt⟩ := c38_sound he hG hp h c hc
  rw [sortedTuple_eq] at hpr
  obtain rfl := Except.ok.inj hpr
  have hlen : (canon p).length = G.vcount := by rw [canon_length]; exact hp p hpc.1
  have hE : HasEstimate env.test G (canon p) γ := ⟨canon p, G', by rw [sortedTuple_eq, canon_idem], hg⟩
  rw [hasEstimate_unweighted hG hd hm hw hlen] at hE
  obtain ⟨hA0, hAW, hPW, hAP, hγ⟩ := hE
  have hPpos := withinNull_pos (F := ℝ) hG hd hm hlen
  have hW : 0 < 2 * (G.ecount : ℝ) := by linarith
  have hne : withinAdj G (canon p) / withinNull G (canon p) ≠
      (2 * G.ecount - withinAdj G (canon p)) / (2 * G.ecount - withinNull G (canon p)) := by
    intro h
    rw [div_eq_div_iff hPpos.ne' (by linarith)] at h
    have : (2 * (G.ecount : ℝ)) * (withinAdj G (canon p) - withinNull G (canon p)) = 0 := by linarith
    rcases mul_eq_zero.mp this with h | h
    · linarith
    · exact hAP (by linarith)
  have hmle := mle_of_coefficients hG hd hm hlen hA0 hAW hPW
  refine ⟨_, _, γ, hne, hmle, ?_, hg, ?_, ?_⟩
  · rw [(c27_degenerate_estimates _ _).2.2.1]
    exact ⟨hmle.1, hmle.2.1, hne, hγ⟩
  all_goals
    intro hlt q hq
    have hfin : gammaFromParameters (withinAdj G (canon p) / withinNull G (canon p))
        ((2 * G.ecount - withinAdj G (canon p)) / (2 * G.ecount - withinNull G (canon p))) = some (.fin γ) := by
      rw [(c27_degenerate_estimates _ _).2.2.1]
      exact ⟨hmle.1, hmle.2.1, hne, hγ⟩
    have hlike : ∀ x y : ℝ, logLikelihood G.vcount (unitEdges G) q x y =
        logLikelihood G.vcount (unitEdges G) (canon q) x y := by
      intro x y
      have hql : q.length = G.vcount := hp q hq.1
      rw [logLikelihood_eq, logLikelihood_eq, pairsInside_unit hd, nullInside_unit hd, pairsInside_unit hd,
        nullInside_unit hd, withinAdj_same (canon_same q) (by rw [canon_length, hql]),
        withinNull_same (canon_same q) (by rw [canon_length, hql])]
    have ho := hopt q hq
    rw [← modularity_canon (hp q hq.1)] at ho
    rw [hlike]
  · exact ((c83_equivalence hd hfin (canon q) (canon p)).1 hlt).mpr ho
  · exact ((c83_equivalence hd hfin (canon p) (canon q)).2 hlt).mpr ho

/-- **C83 (assortative results).** If a partition into one community is among the candidates, everything returned has
`ω_in > ω_out`: it is a joint maximum in the sense of `c83_stable_partitions`. -/
theorem c83_assortative (he : SoundPruneEnv env) (hG : G.WF) (hd : G.directed = false) (hm : 0 < G.ecount)
    (hw : CountsAsUnweighted env.test G) (hp : ∀ p ∈ parts, p.length = G.vcount)
    (h : pruneToStable env G (.memberships parts) γ₀ γf restrict st = (some (.ok (out, G')) : Option _))
    {t : List α} (ht : Candidate parts restrict t) (hone : ∀ x ∈ t, ∀ y ∈ t, x = y) :
    ∀ c ∈ out, ∀ a b, MaximumLikelihood G.vcount (unitEdges G) c a b → b < a ∧ ∀ q, Candidate parts restrict q →
      logLikelihood G.vcount (unitEdges G) q a b ≤ logLikelihood G.vcount (unitEdges G) c a b := by
  intro c hc a b hab
  obtain ⟨a', b', γ, hne, hmle, hfin, hest, hl, hg⟩ := c83_stable_partitions he hG hd hm hw hp h c hc
  have hsame : (a, b) = (a', b') := by
    by_contra hn
    exact absurd (hmle.2.2 a b hab.1 hab.2.1 hn)
      (not_lt.mpr (hab.2.2 a' b' hmle.1 hmle.2.1 (fun h => hn h.symm)).le)
  obtain ⟨rfl, rfl⟩ := Prod.mk.inj hsame
  have hlt : b < a := by
    by_contra hn
    have hab' : a < b := lt_of_le_of_ne (not_lt.mp hn) hne
    have := hg hab' t ht
    have htl : t.length = G.vcount := hp t ht.1
    have hcst : ∀ i j, i < G.vcount → j < G.vcount → t[i]? = t[j]? := by
      intro i j hi hj
      have hi' : i < t.length := by omega
      have hj' : j < t.length := by omega
      rw [List.getElem?_eq_getElem hi', List.getElem?_eq_getElem hj',
        hone _ (List.getElem_mem hi') _ (List.getElem_mem hj')]
    have e1 := withinAdj_all (F := ℝ) hcst
    have e2 := withinNull_all (F := ℝ) hcst
    obtain ⟨⟨p, hpc, hpr⟩, γ', hg', w1, w2, hopt⟩ := c38_sound he hG hp h c hc
    rw [hest] at hg'
    obtain rfl : γ = γ' := by simpa using (Prod.mk.inj (Except.ok.inj hg')).1
    rw [sortedTuple_eq] at hpr
    obtain rfl := Except.ok.inj hpr
    have hlen : (canon p).length = G.vcount := by rw [canon_length]; exact hp p hpc.1
    have ho := hopt t ht
    have hE : HasEstimate env.test G (canon p) γ := ⟨canon p, G', by rw [sortedTuple_eq, canon_idem], hest⟩
    have hE' := hE
    rw [hasEstimate_unweighted hG hd hm hw hlen] at hE'
    obtain ⟨hA0, hAW, hPW, hAP, hγ⟩ := hE'
    have hmle' := mle_of_coefficients hG hd hm hlen hA0 hAW hPW
    have hs' : (withinAdj G (canon p) / withinNull G (canon p),
        (2 * G.ecount - withinAdj G (canon p)) / (2 * G.ecount - withinNull G (canon p))) = (a, b) := by
      by_contra hn
      exact absurd (hab.2.2 _ _ hmle'.1 hmle'.2.1 hn)
        (not_lt.mpr (hmle'.2.2 _ _ hab.1 hab.2.1 (fun h => hn h.symm)).le)
    obtain ⟨ea, eb⟩ := Prod.mk.inj hs'
    obtain ⟨ha, hb, -, hγ'⟩ := ((c27_degenerate_estimates a b).2.2.1 γ).mp hfin
    have hPpos := withinNull_pos (F := ℝ) hG hd hm hlen
    have htot : (total G : ℝ) = 2 * G.ecount := by rw [total_eq hG]; simp [hd]
    obtain ⟨b1, b2⟩ := logMean_between ha hb hne
    rw [max_eq_right hab'.le, ← hγ'] at b2
    rw [modularity_affine, modularity_affine, e1, e2, htot] at ho
    rw [div_eq_iff (by linarith)] at eb
    have : 0 < (b - γ) * (2 * G.ecount - withinNull G (canon p)) := mul_pos (by linarith) (by linarith)
    linarith
  exact ⟨hlt, hl hlt⟩

theorem gReal_bipartite_coefs : withinAdj gReal [0, 1, 0, 1, 1] = 2 ∧ withinNull gReal [0, 1, 0, 1, 1] = 52 / 10 ∧
    withinAdj gReal [0, 1, 0, 1, 0] = 0 ∧ withinNull gReal [0, 1, 0, 1, 0] = 5 := by
  have r0 : rowSum gReal 0 = 2 := by decide
  have r1 : rowSum gReal 1 = 2 := by decide
  have r2 : rowSum gReal 2 = 2 := by decide
  have r3 : rowSum gReal 3 = 3 := by decide
  have r4 : rowSum gReal 4 = 1 := by decide
  have c0 : colSum gReal 0 = 2 := by decide
  have c1 : colSum gReal 1 = 2 := by decide
  have c2 : colSum gReal 2 = 2 := by decide
  have c3 : colSum gReal 3 = 3 := by decide
  have c4 : colSum gReal 4 = 1 := by decide
  have ht : total gReal = 10 := by decide
  have hv : gReal.vcount = 5 := rfl
  refine ⟨?_, ?_, ?_, ?_⟩
  · simp [withinAdj, gReal, adj, Finset.sum_range_succ]; norm_num
  · simp [withinNull, hv, r0, r1, r2, r3, r4, c0, c1, c2, c3, c4, ht, Finset.sum_range_succ]; norm_num
  · simp [withinAdj, gReal, adj, Finset.sum_range_succ]
  · simp [withinNull, hv, r0, r1, r2, r3, r4, c0, c1, c2, c3, c4, ht, Finset.sum_range_succ]; norm_num

/-- **C83 (finding).** Without a one-community candidate the equivalence can fail: pruning the two partitions `{0,2},{1,3,4}`
and `{0,2,4},{1,3}` of a five-vertex graph returns the first as stable, although under its own maximum-likelihood
parameters (`ω_in < ω_out`) the second one is strictly more likely. -/
theorem c83_less_likely_returned : ∃ out G',
    pruneToStable pruneEnv gReal (.memberships [[0, 1, 0, 1, 1], [0, 1, 0, 1, 0]]) 0 2 none false =
      (some (.ok (out, G')) : Option _) ∧ [0, 1, 0, 1, 1] ∈ out ∧
    ∃ a b, MaximumLikelihood gReal.vcount (unitEdges gReal) [0, 1, 0, 1, 1] a b ∧
      logLikelihood gReal.vcount (unitEdges gReal) [0, 1, 0, 1, 1] a b <
        logLikelihood gReal.vcount (unitEdges gReal) [0, 1, 0, 1, 0] a b := by
  obtain ⟨hA, hP, hA0, hP0⟩ := gReal_bipartite_coefs
  have hec : (gReal.ecount : ℝ) = 5 := by norm_num [gReal, Graph.ecount]
  obtain ⟨out, G', h⟩ := c39_returns (parts := [[0, 1, 0, 1, 1], [0, 1, 0, 1, 0]]) (γ₀ := 0) (γf := 2) pruneEnv_sound
    exactEnv_exact gReal_wf rfl (by decide) (by decide) (by intro h; cases h) (by decide) (by norm_num) none false
  have hE : HasEstimate pruneEnv.test gReal [0, 1, 0, 1, 1] (logMean (2 / (52 / 10)) ((10 - 2) / (10 - 52 / 10))) := by
    rw [hasEstimate_unweighted gReal_wf rfl (by decide) (by intro h; cases h) rfl, hA, hP, hec]
    refine ⟨by norm_num, by norm_num, by norm_num, by norm_num, by norm_num⟩
  obtain ⟨b1, b2⟩ := logMean_between (a := 2 / (52 / 10)) (b := (10 - 2) / (10 - 52 / 10)) (by norm_num) (by norm_num)
    (by norm_num)
  have hγf : gammaFromParameters (2 / (52 / 10)) ((10 - 2) / (10 - 52 / 10)) =
      some (.fin (logMean (2 / (52 / 10)) ((10 - 2) / (10 - 52 / 10)))) := by
    rw [(c27_degenerate_estimates _ _).2.2.1]
    exact ⟨by norm_num, by norm_num, by norm_num, rfl⟩
  generalize logMean (2 / (52 / 10)) ((10 - 2) / (10 - 52 / 10)) = γ at *
  norm_num at b1 b2
  have hbest : ∀ q, Candidate [[0, 1, 0, 1, 1], [0, 1, 0, 1, 0]] none q → ¬ SameModularity gReal q [0, 1, 0, 1, 1] →
      modularity gReal γ q < modularity gReal γ [0, 1, 0, 1, 1] := by
    rintro q ⟨hq, -⟩ hn
    simp only [List.mem_cons, List.not_mem_nil, or_false] at hq
    rcases hq with rfl | rfl
    · exact absurd (fun _ => rfl) hn
    · simp only [modularity_affine, hA, hP, hA0, hP0]; linarith
  have hdist : ∀ p q, Candidate [[0, 1, 0, 1, 1], [0, 1, 0, 1, 0]] none p →
      Candidate [[0, 1, 0, 1, 1], [0, 1, 0, 1, 0]] none q → SameModularity gReal p q → SamePartition p q := by
    rintro p q ⟨hp, -⟩ ⟨hq, -⟩ hs
    have h0 := hs 0
    simp only [modularity_affine, zero_mul, sub_zero] at h0
    simp only [List.mem_cons, List.not_mem_nil, or_false] at hp hq
    rcases hp with rfl | rfl <;> rcases hq with rfl | rfl <;>
      first
      | exact SamePartition.refl _
      | (exfalso; simp only [hA, hA0] at h0; norm_num at h0)
  refine ⟨out, G', h, ?_, 2 / (52 / 10), (10 - 2) / (10 - 52 / 10), ?_, ?_⟩
  · refine (c39_characterisation pruneEnv_sound gReal_wf (by decide) hdist h _).mpr
      ⟨[0, 1, 0, 1, 1], ⟨by decide, by simp⟩, by decide, ⟨γ, by linarith, by linarith, hbest⟩, γ, hE, by linarith,
        by linarith, fun q hq => ?_⟩
    by_cases hs : SameModularity gReal q [0, 1, 0, 1, 1]
    · exact (hs γ).le
    · exact (hbest q hq hs).le
  · have := mle_of_coefficients gReal_wf rfl (by decide) (c := [0, 1, 0, 1, 1]) rfl (by rw [hA]; norm_num)
      (by rw [hA, hec]; norm_num) (by rw [hP, hec]; norm_num)
    rw [hA, hP, hec] at this
    norm_num at this ⊢
    exact this
  · have := (c83_equivalence (G := gReal) rfl hγf [0, 1, 0, 1, 0] [0, 1, 0, 1, 1]).2 (by norm_num)
    rw [← not_le, this, not_le]
    simp only [modularity_affine, hA, hP, hA0, hP0]; linarith

/-! ### Witnesses -/

/-- Maximum-likelihood parameters of `{0,1}, {2,3,4}` in `gReal` (`A = 6`, `P = 5.2`, `2m = 10`). -/
example : MaximumLikelihood gReal.vcount (unitEdges gReal) ([0, 0, 1, 1, 1] : List Nat) (15 / 13) (5 / 6) := by
  have hs : SamePartition ([0, 0, 1, 1, 1] : List Nat) ([7, 7, 2, 2, 2] : List Nat) := by
    have h := canon_same ([7, 7, 2, 2, 2] : List Nat)
    rwa [show canon ([7, 7, 2, 2, 2] : List Nat) = [0, 0, 1, 1, 1] by decide] at h
  have hA : withinAdj gReal ([0, 0, 1, 1, 1] : List Nat) = 6 := by rw [withinAdj_same hs rfl]; exact gReal_coefs.1
  have hP : withinNull gReal ([0, 0, 1, 1, 1] : List Nat) = 52 / 10 := by
    rw [withinNull_same hs rfl]; exact gReal_coefs.2.1
  have hec : (gReal.ecount : ℝ) = 5 := by norm_num [gReal, Graph.ecount]
  have := mle_of_coefficients gReal_wf rfl (by decide) (c := [0, 0, 1, 1, 1]) rfl (by rw [hA]; norm_num)
    (by rw [hA, hec]; norm_num) (by rw [hP, hec]; norm_num)
  rw [hA, hP, hec] at this
  norm_num at this
  exact this

/-- A weighted path: the estimate exists and both parameters are positive. -/
example : estimateSinglelayerSBM (⟨3, false, [(0, 1), (1, 2)], some [2, 1]⟩ : Graph ℚ) [0, 0, 1] none =
    .ok (12 / 13, 6 / 5) := by decide +kernel

/-- One run that meets the hypotheses of `c83_assortative` and returns a two-community partition. -/
example : ∃ out G', pruneToStable pruneEnv gReal (.memberships threeParts) 0 2 none false =
      (some (.ok (out, G')) : Option _) ∧ [0, 0, 1, 1, 1] ∈ out ∧
    Candidate threeParts none [4, 4, 4, 4, 4] ∧ (∀ x ∈ [4, 4, 4, 4, 4], ∀ y ∈ [4, 4, 4, 4, 4], x = y) := by
  obtain ⟨out, G', h⟩ := c39_returns (parts := threeParts) (γ₀ := 0) (γf := 2) pruneEnv_sound exactEnv_exact gReal_wf rfl
    (by decide) (by decide) (by intro h; cases h) (by decide) (by norm_num) none false
  exact ⟨out, G', h, threeParts_returned h, ⟨by decide, by simp⟩, by decide⟩

end Verif.Props
