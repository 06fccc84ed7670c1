import Verif.Spec.Representation
import Verif.Props.Batches

/-!
# Property C122: different graphs describing the same network
-/

namespace Verif.Props
open Verif Verif.Spec Finset

section
variable {α : Type} [DecidableEq α] {G G' : Graph ℝ} {k : Nat} {p : List α}

theorem count_swapped (es : List (Nat × Nat)) (a b : Nat) :
    (es.map fun e => (e.2, e.1)).count (a, b) = es.count (b, a) := by
  induction es with
  | nil => rfl
  | cons e es ih =>
    rw [List.map_cons, List.count_cons, List.count_cons, ih]
    congr 1
    have : ((e.2, e.1) = (a, b)) ↔ (e = (b, a)) := by
      constructor
      · intro h
        obtain ⟨h1, h2⟩ := Prod.mk.inj h
        exact Prod.ext h2 h1
      · rintro rfl; rfl
    simp only [beq_iff_eq, this]

/-- **C122 (reversing).** Reversing all edges gives the same network. -/
theorem c122_reversed (G : Graph ℝ) : SameNetwork 1 G (reversed G) := by
  refine ⟨rfl, Or.inr fun i j => ?_⟩
  have hc := count_swapped G.edges
  unfold adj reversed
  simp only [hc, one_mul]

/-- **C122 (repeating).** Repeating every edge `k` times gives the same network. -/
theorem c122_repeated (G : Graph ℝ) (k : Nat) : SameNetwork k G (copied G k) := by
  refine ⟨rfl, Or.inl fun i j => ?_⟩
  have hc : ∀ a, ((List.replicate k G.edges).flatten).count a = k * G.edges.count a := by
    intro a
    induction k with
    | zero => simp
    | succ n ih => rw [List.replicate_succ, List.flatten_cons, List.count_append, ih]; ring
  unfold adj copied
  simp only [hc]
  split <;> ring

/-- **C122 (both directions).** The directed graph with both directions of every edge of an undirected graph describes the
same network. -/
theorem c122_both_directions (hd : G.directed = false) : SameNetwork 1 G (bothDirections G) := by
  refine ⟨rfl, Or.inl fun i j => ?_⟩
  have hc := count_swapped G.edges
  unfold adj bothDirections
  simp [hd, hc, List.count_append]

theorem total_same (h : SameNetwork k G G') : total G' = k * total G := by
  unfold total
  rw [h.1]
  rcases h.2 with h | h
  · simp only [h, ← Finset.mul_sum]
  · rw [Finset.sum_comm]
    simp only [h, ← Finset.mul_sum]

theorem sums_same (h : SameNetwork k G G') :
    (∀ i, rowSum G' i = k * rowSum G i ∧ colSum G' i = k * colSum G i) ∨
    ∀ i, rowSum G' i = k * colSum G i ∧ colSum G' i = k * rowSum G i := by
  unfold rowSum colSum
  rw [h.1]
  rcases h.2 with h | h
  · left; intro i; simp only [h, ← Finset.mul_sum, and_self]
  · right; intro i; simp only [h, ← Finset.mul_sum, and_self]

theorem withinAdj_network (h : SameNetwork k G G') (p : List α) : withinAdj G' p = k * withinAdj G p := by
  unfold withinAdj
  rw [h.1]
  rcases h.2 with h | h
  · rw [Finset.mul_sum]
    refine Finset.sum_congr rfl fun i _ => ?_
    rw [Finset.mul_sum]
    refine Finset.sum_congr rfl fun j _ => ?_
    rw [h]; split <;> push_cast <;> ring
  · rw [Finset.sum_comm, Finset.mul_sum]
    refine Finset.sum_congr rfl fun i _ => ?_
    rw [Finset.mul_sum]
    refine Finset.sum_congr rfl fun j _ => ?_
    rw [h]
    simp only [eq_comm (a := p[j]?) (b := p[i]?)]
    split <;> push_cast <;> ring

theorem null_term (hk : 0 < k) (a b t : ℝ) : (k * a) * (k * b) / (k * t) = k * (a * b / t) := by
  have hk' : (k : ℝ) ≠ 0 := by positivity
  by_cases ht : t = 0
  · subst ht; simp
  · field_simp

theorem withinNull_network (hk : 0 < k) (h : SameNetwork k G G') (p : List α) : withinNull G' p = k * withinNull G p := by
  unfold withinNull
  rw [h.1, total_same h]
  rcases sums_same h with h | h
  · rw [Finset.mul_sum]
    refine Finset.sum_congr rfl fun i _ => ?_
    rw [Finset.mul_sum]
    refine Finset.sum_congr rfl fun j _ => ?_
    rw [(h i).2, (h j).1]
    push_cast
    rw [null_term hk]
    split <;> ring
  · rw [Finset.sum_comm, Finset.mul_sum]
    refine Finset.sum_congr rfl fun i _ => ?_
    rw [Finset.mul_sum]
    refine Finset.sum_congr rfl fun j _ => ?_
    rw [(h j).2, (h i).1]
    simp only [eq_comm (a := p[j]?) (b := p[i]?)]
    push_cast
    rw [null_term hk, mul_comm ((rowSum G j : ℝ)) (colSum G i : ℝ)]
    split <;> ring

/-- **C122 (modularity).** The modularity of every partition at every resolution is `k` times that on the original graph. -/
theorem c122_modularity (hk : 0 < k) (h : SameNetwork k G G') (p : List α) (γ : ℝ) :
    modularity G' γ p = k * modularity G γ p := by
  rw [modularity_affine, modularity_affine, withinAdj_network h, withinNull_network hk h]
  ring

end

section
variable {α : Type} [DecidableEq α] {G G' : Graph ℝ} {k : Nat} {parts parts' : List (List α)} {γ₀ γf : ℝ}

theorem champ2D_network_one {env env' : ChampEnv} {st st' : Bool} {ranges ranges' : List (ℝ × ℝ × List α)}
    {c : ℝ} (hc : 0 < c) (hmod : ∀ γ (p : List α), modularity G' γ p = c * modularity G γ p)
    (he : SoundEnv env) (he' : SoundEnv env') (hG : G.WF)
    (hG' : G'.WF) (hv : G'.vcount = G.vcount) (hp : ∀ p ∈ parts, p.length = G.vcount) (hsame : ∀ p, p ∈ parts ↔ p ∈ parts')
    (hr : champ2D env G parts γ₀ γf st = (some (.ok ranges) : Option _))
    (hr' : champ2D env' G' parts' γ₀ γf st' = (some (.ok ranges') : Option _)) :
    ∀ r ∈ ranges, ∃ r' ∈ ranges', r'.1 = r.1 ∧ r'.2.1 = r.2.1 ∧ SameModularity G r'.2.2 r.2.2 := by
  have hp' : ∀ p ∈ parts', p.length = G'.vcount := fun p hp' => by rw [hv]; exact hp p ((hsame p).mpr hp')
  intro r hrm
  obtain ⟨h1, h2, h3, h4, hiff⟩ := c17_ranges_correct he hG hp hr r hrm
  have hstrict := c20_returned_strictly_optimal he hG hp hr r hrm ((r.1 + r.2.1) / 2) (by linarith) (by linarith)
  obtain ⟨r', hr'm, g1, g2, g3⟩ := c20_strictly_optimal_returned he' hG' hp' hr' ((hsame _).mp h4)
    (γ := (r.1 + r.2.1) / 2) (by linarith) (by linarith) (by
      intro c' hc' ⟨γ', hγ'⟩
      rw [hmod, hmod]
      refine mul_lt_mul_of_pos_left (hstrict c' ((hsame _).mpr hc') ⟨γ', fun e => hγ' ?_⟩) hc
      rw [hmod, hmod, e])
  obtain ⟨k1, k2, k3, k4, hiff'⟩ := c17_ranges_correct he' hG' hp' hr' r' hr'm
  have hs : SameModularity G r'.2.2 r.2.2 := fun γ => by
    have := g3 γ
    rw [hmod, hmod] at this
    exact mul_left_cancel₀ hc.ne' this
  have hset : ∀ γ, (r.1 ≤ γ ∧ γ ≤ r.2.1) ↔ (r'.1 ≤ γ ∧ γ ≤ r'.2.1) := by
    intro γ
    rw [hiff, hiff']
    refine and_congr Iff.rfl ⟨fun hall c' hc' => ?_, fun hall c' hc' => ?_⟩
    · rw [hmod, hmod, hs]
      exact mul_le_mul_of_nonneg_left (hall c' ((hsame _).mpr hc')) hc.le
    · have := hall c' ((hsame _).mp hc')
      rw [hmod, hmod, hs] at this
      exact le_of_mul_le_mul_left this hc
  refine ⟨r', hr'm, ?_, ?_, hs⟩
  · exact le_antisymm ((hset r.1).mp ⟨le_rfl, h2.le⟩).1 ((hset r'.1).mpr ⟨le_rfl, k2.le⟩).1
  · exact le_antisymm ((hset r'.2.1).mpr ⟨k2.le, le_rfl⟩).2 ((hset r.2.1).mp ⟨h2.le, le_rfl⟩).2

/-- **C122 (CHAMP_2D).** On any graph describing the same network, `CHAMP_2D` returns the same list of ranges, each with a
partition of the same modularity at every resolution. -/
theorem c122_champ2D {env env' : ChampEnv} {st st' : Bool} {ranges ranges' : List (ℝ × ℝ × List α)} (he : SoundEnv env)
    (he' : SoundEnv env') (hG : G.WF) (hG' : G'.WF) (hk : 0 < k) (hn : SameNetwork k G G')
    (hp : ∀ p ∈ parts, p.length = G.vcount) (hsame : ∀ p, p ∈ parts ↔ p ∈ parts')
    (hr : champ2D env G parts γ₀ γf st = (some (.ok ranges) : Option _))
    (hr' : champ2D env' G' parts' γ₀ γf st' = (some (.ok ranges') : Option _)) :
    List.Forall₂ (fun r r' => r'.1 = r.1 ∧ r'.2.1 = r.2.1 ∧ SameModularity G r'.2.2 r.2.2) ranges ranges' := by
  have hc : (0 : ℝ) < k := by exact_mod_cast hk
  have hp' : ∀ p ∈ parts', p.length = G'.vcount := fun p hp' => by rw [hn.1]; exact hp p ((hsame p).mpr hp')
  refine sorted_match (fun r => r.1) (fun r => r.1) _ (ranges_sorted he hG hp hr) (ranges_sorted he' hG' hp' hr')
    (fun r hrm => ?_) (fun r' hrm => ?_)
  · obtain ⟨r', hm', e1, e2, e3⟩ := champ2D_network_one hc (fun γ p => c122_modularity hk hn p γ) he he' hG hG' hn.1 hp hsame
      hr hr' r hrm
    exact ⟨r', hm', e1, e1, e2, e3⟩
  · obtain ⟨r, hm', e1, -⟩ := champ2D_network_one (c := (k : ℝ)⁻¹) (by positivity) (fun γ p => by
        rw [c122_modularity hk hn, inv_mul_cancel_left₀ hc.ne']) he' he hG' hG hn.1.symm hp' (fun p => (hsame p).symm) hr' hr
      r' hrm
    exact ⟨r, hm', e1.symm⟩

end

section
variable {α : Type} [LinearOrder α] {G G' : Graph ℝ} {k l : Nat} {parts parts' : List (List α)} {γ₀ γf : ℝ}

theorem hasEstimate_undirected (test : Graph ℝ → Bool) (p : List α) (γ : ℝ) :
    HasEstimate test G p γ ↔ HasEstimate (fun H => test { H with directed := G.directed }) (undirected G) p γ := by
  have key : ∀ c, (∃ G₁, gammaEstimate test G c = .ok (some (.fin γ), G₁)) ↔
      ∃ G₁, gammaEstimate (fun H => test { H with directed := G.directed }) (undirected G) c = .ok (some (.fin γ), G₁) := by
    intro c
    obtain ⟨n, d, es, w⟩ := G
    unfold gammaEstimate ensureWeight undirected
    by_cases ht : test ⟨n, d, es, w⟩ = true
    · simp only [if_pos ht, Py.ok_bind, leidenPartWithMembership]
      by_cases hc : c.length = n
      · simp only [if_pos hc, Py.ok_bind]
        rw [show estimateSinglelayerSBM (⟨n, false, es, w⟩ : Graph ℝ) c none = estimateSinglelayerSBM ⟨n, d, es, w⟩ c none from
          rfl]
        cases estimateSinglelayerSBM (⟨n, d, es, w⟩ : Graph ℝ) c none with
        | error e => constructor <;> rintro ⟨_, h⟩ <;> cases h
        | ok r =>
          simp only [Py.ok_bind]
          constructor <;> rintro ⟨_, h⟩ <;> exact ⟨_, congrArg (fun x => Except.ok (x, _)) (Prod.mk.inj (Except.ok.inj h)).1⟩
      · simp only [if_neg hc, Py.error_bind]
    · simp only [if_neg ht, Graph.setEsWeight, leidenPartWithMembership]
      by_cases h0 : List.replicate n (1 : ℝ) = [] ∧ es ≠ []
      · simp only [if_pos h0, Py.error_bind]
      · simp only [if_neg h0, Py.ok_bind]
        by_cases hc : c.length = n
        · simp only [if_pos hc, Py.ok_bind]
          generalize hW : (some (List.filterMap _ _) : Option (List ℝ)) = W
          rw [show estimateSinglelayerSBM (⟨n, false, es, W⟩ : Graph ℝ) c none = estimateSinglelayerSBM ⟨n, d, es, W⟩ c none from
            rfl]
          cases estimateSinglelayerSBM (⟨n, d, es, W⟩ : Graph ℝ) c none with
          | error e => constructor <;> rintro ⟨_, h⟩ <;> cases h
          | ok r =>
            simp only [Py.ok_bind]
            constructor <;> rintro ⟨_, h⟩ <;> exact ⟨_, congrArg (fun x => Except.ok (x, _)) (Prod.mk.inj (Except.ok.inj h)).1⟩
        · simp only [if_neg hc, Py.error_bind]
  unfold HasEstimate
  refine exists_congr fun c => ?_
  rw [exists_and_left, exists_and_left, key]

/-- **C122 (estimates).** Unweighted graphs that, with directions forgotten, describe the same network: the same partitions
have the same gamma estimates, or none. -/
theorem c122_estimate (hG : G.WF) (hG' : G'.WF) (hm : 0 < G.ecount) (hl : 0 < l)
    (hu : SameNetwork l (undirected G) (undirected G')) {test : Graph ℝ → Bool} (hw : CountsAsUnweighted test G)
    (hw' : CountsAsUnweighted test G') {p : List α} (hp : p.length = G.vcount) (γ : ℝ) :
    HasEstimate test G p γ ↔ HasEstimate test G' p γ := by
  have hl' : (0 : ℝ) < l := by exact_mod_cast hl
  have hec : G'.ecount = l * G.ecount := by
    have := total_same hu
    rw [total_eq (F := ℝ) (G := undirected G) hG, total_eq (F := ℝ) (G := undirected G') hG'] at this
    simp only [undirected, Bool.false_eq_true, if_false, Graph.ecount] at this
    unfold Graph.ecount
    linarith [mul_left_comm l 2 G.edges.length]
  have hec' : (2 : ℝ) * (undirected G').ecount = l * (2 * (undirected G).ecount) := by
    have : ((undirected G').ecount : ℝ) = l * (undirected G).ecount := by exact_mod_cast hec
    rw [this]; ring
  have hm' : 0 < G'.ecount := by rw [hec]; positivity
  rw [hasEstimate_undirected test p γ, hasEstimate_undirected (G := G') test p γ,
    hasEstimate_unweighted (G := undirected G) hG rfl hm (fun h => hw h) hp,
    hasEstimate_unweighted (G := undirected G') hG' rfl hm' (fun h => hw' h) (by rw [hp]; exact hu.1.symm),
    withinAdj_network hu, withinNull_network hl hu, hec']
  generalize withinAdj (undirected G) p = A
  generalize withinNull (undirected G) p = P
  generalize 2 * ((undirected G).ecount : ℝ) = M
  rw [mul_pos_iff_of_pos_left hl', mul_lt_mul_iff_of_pos_left hl', mul_lt_mul_iff_of_pos_left hl', ne_eq, ne_eq,
    mul_right_inj' hl'.ne', mul_div_mul_left _ _ hl'.ne', ← mul_sub, ← mul_sub, mul_div_mul_left _ _ hl'.ne']

theorem sameModularity_network (hk : 0 < k) (hn : SameNetwork k G G') {α β : Type} [DecidableEq α] [DecidableEq β] (p : List α)
    (q : List β) : SameModularity G' p q ↔ SameModularity G p q := by
  have hc : (k : ℝ) ≠ 0 := by positivity
  refine forall_congr' fun γ => ?_
  rw [c122_modularity hk hn, c122_modularity hk hn, mul_right_inj' hc]

/-- **C122 (pruning).** Unweighted graphs describing the same network (also with directions forgotten), partitions with
different coefficients: pruning returns the same set of partitions. -/
theorem c122_prune {env env' : PruneEnv} {restrict : Option Nat} {st st' : Bool} {out out' : List (List Nat)}
    {G₁ G₂ : Graph ℝ} (he : SoundPruneEnv env) (he' : SoundPruneEnv env') (htest : env.test = env'.test) (hG : G.WF)
    (hG' : G'.WF) (hm : 0 < G.ecount) (hk : 0 < k) (hn : SameNetwork k G G') (hl : 0 < l)
    (hu : SameNetwork l (undirected G) (undirected G')) (hw : CountsAsUnweighted env.test G)
    (hw' : CountsAsUnweighted env.test G') (hp : ∀ p ∈ parts, p.length = G.vcount) (hsame : ∀ p, p ∈ parts ↔ p ∈ parts')
    (hdist : ∀ p ∈ parts, ∀ q ∈ parts, SameModularity G p q → SamePartition p q)
    (h : pruneToStable env G (.memberships parts) γ₀ γf restrict st = (some (.ok (out, G₁)) : Option _))
    (h' : pruneToStable env' G' (.memberships parts') γ₀ γf restrict st' = (some (.ok (out', G₂)) : Option _)) (c : List Nat) :
    c ∈ out' ↔ c ∈ out := by
  have hc : (0 : ℝ) < k := by exact_mod_cast hk
  have hcand : ∀ p, Candidate parts' restrict p ↔ Candidate parts restrict p := fun p => and_congr_left' (hsame p).symm
  rw [c39_characterisation he hG hp (fun p q hp hq => hdist p hp.1 q hq.1) h,
    c39_characterisation he' hG' (fun p hp' => by rw [hn.1]; exact hp p ((hsame p).mpr hp'))
      (fun p q hp hq hs => hdist p ((hsame p).mpr hp.1) q ((hsame q).mpr hq.1) ((sameModularity_network hk hn p q).mp hs)) h',
    ← htest]
  refine exists_congr fun p => ?_
  rw [hcand]
  refine and_congr_right fun hpc => and_congr_right fun _ => ?_
  constructor
  · rintro ⟨⟨g, g1, g2, hb⟩, γ, hE, w1, w2, hopt⟩
    refine ⟨⟨g, g1, g2, fun q hq hne => ?_⟩, γ, (c122_estimate hG hG' hm hl hu hw hw' (hp p hpc.1) γ).mpr hE, w1, w2,
      fun q hq => ?_⟩
    · have := hb q ((hcand q).mpr hq) (fun hs => hne ((sameModularity_network hk hn q p).mp hs))
      rw [c122_modularity hk hn, c122_modularity hk hn] at this
      exact lt_of_mul_lt_mul_left this hc.le
    · have := hopt q ((hcand q).mpr hq)
      rw [c122_modularity hk hn, c122_modularity hk hn] at this
      exact le_of_mul_le_mul_left this hc
  · rintro ⟨⟨g, g1, g2, hb⟩, γ, hE, w1, w2, hopt⟩
    refine ⟨⟨g, g1, g2, fun q hq hne => ?_⟩, γ, (c122_estimate hG hG' hm hl hu hw hw' (hp p hpc.1) γ).mp hE, w1, w2,
      fun q hq => ?_⟩
    · rw [c122_modularity hk hn, c122_modularity hk hn]
      exact mul_lt_mul_of_pos_left (hb q ((hcand q).mp hq) fun hs => hne ((sameModularity_network hk hn q p).mpr hs)) hc
    · rw [c122_modularity hk hn, c122_modularity hk hn]
      exact mul_le_mul_of_nonneg_left (hopt q ((hcand q).mp hq)) hc.le

/-- Forgetting directions: reversing, repeating and doubling edges still give the same network. -/
theorem c122_undirected (G : Graph ℝ) (k : Nat) : SameNetwork 1 (undirected G) (undirected (reversed G)) ∧
    SameNetwork k (undirected G) (undirected (copied G k)) ∧
    SameNetwork 2 (undirected G) (undirected (bothDirections G)) := by
  refine ⟨c122_reversed (undirected G), c122_repeated (undirected G) k, rfl, Or.inl fun i j => ?_⟩
  have hc := count_swapped G.edges
  unfold adj bothDirections undirected
  simp [hc, List.count_append]
  ring

end

/-! ### Multilayer networks -/

section
variable {α : Type} [DecidableEq α] {Gi Gx Gi' Gx' : Graph ℝ} {k l : Nat} {layer : List Nat}

theorem adj_cross (hc : ∀ e ∈ Gi.edges, layer[e.1]? = layer[e.2]?) {i j : Nat} (h : layer[i]? ≠ layer[j]?) :
    adj Gi i j = 0 := by
  have h1 : Gi.edges.count (i, j) = 0 := List.count_eq_zero.2 fun he => h (hc _ he)
  have h2 : Gi.edges.count (j, i) = 0 := List.count_eq_zero.2 fun he => h (hc _ he).symm
  unfold adj
  rw [h1, h2]
  simp

theorem layerTotal_network (hc : ∀ e ∈ Gi.edges, layer[e.1]? = layer[e.2]?) (h : SameNetwork k Gi Gi') (t : Nat) :
    layerTotal Gi' layer t = k * layerTotal Gi layer t := by
  unfold layerTotal
  rw [h.1]
  rcases h.2 with h | h
  · rw [Finset.mul_sum]
    refine Finset.sum_congr rfl fun i _ => ?_
    rw [Finset.mul_sum]
    refine Finset.sum_congr rfl fun j _ => ?_
    rw [h]; split <;> simp
  · rw [Finset.sum_comm, Finset.mul_sum]
    refine Finset.sum_congr rfl fun i _ => ?_
    rw [Finset.mul_sum]
    refine Finset.sum_congr rfl fun j _ => ?_
    rw [h]
    by_cases he : layer[i]? = layer[j]?
    · rw [he]; split <;> simp
    · rw [adj_cross hc he]; simp

theorem withinNullLayered_network (hk : 0 < k) (hc : ∀ e ∈ Gi.edges, layer[e.1]? = layer[e.2]?) (h : SameNetwork k Gi Gi')
    (p : List α) : withinNullLayered Gi' layer p = k * withinNullLayered Gi layer p := by
  unfold withinNullLayered
  simp only [h.1, layerTotal_network hc h]
  rcases sums_same h with h | h
  · rw [Finset.mul_sum]
    refine Finset.sum_congr rfl fun i _ => ?_
    rw [Finset.mul_sum]
    refine Finset.sum_congr rfl fun j _ => ?_
    rw [(h i).2, (h j).1]
    push_cast
    rw [null_term hk]
    split <;> ring
  · rw [Finset.sum_comm, Finset.mul_sum]
    refine Finset.sum_congr rfl fun i _ => ?_
    rw [Finset.mul_sum]
    refine Finset.sum_congr rfl fun j _ => ?_
    rw [(h j).2, (h i).1]
    simp only [eq_comm (a := p[j]?) (b := p[i]?), eq_comm (a := layer[j]?) (b := layer[i]?)]
    push_cast
    by_cases hs : p[i]? = p[j]? ∧ layer[i]? = layer[j]?
    · rw [if_pos hs, if_pos hs, ← hs.2, null_term hk, mul_comm ((rowSum Gi j : ℝ)) (colSum Gi i : ℝ)]
    · rw [if_neg hs, if_neg hs, mul_zero]

/-- **C122 (multilayer modularity).** With `k` times the intralayer and `l` times the interlayer edges, the multilayer
modularity at `(γ, ω)` is `k` times that of the original network at `(γ, (l / k) ω)`. -/
theorem c122_multilayer_modularity (hk : 0 < k) (hc : ∀ e ∈ Gi.edges, layer[e.1]? = layer[e.2]?) (hi : SameNetwork k Gi Gi')
    (hx : SameNetwork l Gx Gx') (p : List α) (γ ω : ℝ) :
    multilayerModularity Gi' Gx' layer γ ω p = k * multilayerModularity Gi Gx layer γ (l / k * ω) p := by
  have hk' : (k : ℝ) ≠ 0 := by positivity
  unfold multilayerModularity
  rw [withinAdj_network hi, withinAdj_network hx, withinNullLayered_network hk hc hi]
  field_simp

end

section
variable {α : Type} [DecidableEq α] {Gi Gx Gi' Gx' : Graph ℝ} {k l : Nat} {layer : List Nat} {parts parts' : List (List α)}
  {γ₀ γf ω₀ ωf ω₀' ωf' : ℝ} {env env' : ChampEnv} {doms doms' : List (List (ℝ × ℝ) × List α)}

theorem champ3D_network_one {s c : ℝ} (hs : 0 < s) (hc : 0 < c)
    (hmod : ∀ γ ω (p : List α), multilayerModularity Gi' Gx' layer γ ω p = c * multilayerModularity Gi Gx layer γ (s * ω) p)
    (he : SoundEnv env) (he' : SoundEnv env') (hM : Multilayer Gi Gx layer) (hM' : Multilayer Gi' Gx' layer)
    (hv : Gi'.vcount = Gi.vcount) (hp : ∀ p ∈ parts, p.length = Gi.vcount) (hsame : ∀ p, p ∈ parts ↔ p ∈ parts')
    (hω₀ : ω₀ = s * ω₀') (hωf : ωf = s * ωf')
    (hr : champ3D env Gi Gx layer parts γ₀ γf ω₀ ωf = (some (.ok doms) : Option _))
    (hr' : champ3D env' Gi' Gx' layer parts' γ₀ γf ω₀' ωf' = (some (.ok doms') : Option _)) :
    doms.length ≤ doms'.length ∧ ∀ d ∈ doms, ∃ d' ∈ doms', SameMultilayer Gi Gx layer d'.2 d.2 ∧
      ∀ γ ω, (γ, ω) ∈ convexHull ℝ {q | q ∈ d'.1} ↔ (γ, s * ω) ∈ convexHull ℝ {q | q ∈ d.1} := by
  have hp' : ∀ p ∈ parts', p.length = Gi'.vcount := fun p hp' => by rw [hv]; exact hp p ((hsame p).mpr hp')
  have hone : ∀ d ∈ doms, ∃ d' ∈ doms', SameMultilayer Gi Gx layer d'.2 d.2 := by
    intro d hd
    obtain ⟨z, hz⟩ := (c22_domains_disjoint he hM hp hr).2.2.2 d hd
    obtain ⟨hdp, -, hchar⟩ := c21_domains_correct he hM hp hr d hd
    obtain ⟨⟨g, w⟩, -⟩ := (hchar z).mp (interior_subset hz)
    rw [hω₀, hωf] at w
    have hz2 : s * (z.2 / s) = z.2 := by field_simp
    obtain ⟨d', hd', -, hopt⟩ := c22_domains_cover he' hM' hp' (List.ne_nil_of_mem ((hsame _).mp hdp)) hr' (γ := z.1)
      (ω := z.2 / s) g ⟨by rw [le_div_iff₀ hs]; linarith [w.1], by rw [div_le_iff₀ hs]; linarith [w.2]⟩
    refine ⟨d', hd', same_of_touching (mem_interior_iff_mem_nhds.mp hz)
      (fun z hz => ((hchar z).mp hz).2 _ ((hsame _).mpr (c21_domains_correct he' hM' hp' hr' d' hd').1)) ?_⟩
    have := hopt _ ((hsame _).mp hdp)
    rw [hmod, hmod, hz2] at this
    exact le_of_mul_le_mul_left this hc
  refine ⟨?_, fun d hd => ?_⟩
  · have hA := (c22_domains_disjoint he hM hp hr).2.1
    choose! f hf using hone
    have hnd : (doms.map f).Nodup := by
      rw [List.Nodup, List.pairwise_map]
      refine hA.imp_of_mem fun {a b} ha hb hne heq => ?_
      obtain ⟨γ, ω, hne⟩ := hne
      exact hne (by rw [← (hf a ha).2, ← (hf b hb).2, heq])
    have := (hnd.subperm (l₂ := doms') (fun x hx => by
      obtain ⟨a, ha, rfl⟩ := List.mem_map.mp hx
      exact (hf a ha).1)).length_le
    rwa [List.length_map] at this
  · obtain ⟨d', hd', hsm⟩ := hone d hd
    refine ⟨d', hd', hsm, fun γ ω => ?_⟩
    rw [(c21_domains_correct he hM hp hr d hd).2.2, (c21_domains_correct he' hM' hp' hr' d' hd').2.2, hω₀, hωf]
    simp only [mul_le_mul_iff_of_pos_left hs]
    refine and_congr_right fun _ => ⟨fun hall q hq => ?_, fun hall q hq => ?_⟩
    · have := hall q ((hsame q).mp hq)
      rw [hmod, hmod, hsm] at this
      exact le_of_mul_le_mul_left this hc
    · rw [hmod, hmod, hsm]
      exact mul_le_mul_of_nonneg_left (hall q ((hsame q).mpr hq)) hc.le

/-- **C122 (CHAMP_3D).** With `k` times the intralayer and `l` times the interlayer edges, `CHAMP_3D` on the window with
`ω` divided by `l / k` returns as many domains, each (rescaled) with a partition of the same modularity everywhere. -/
theorem c122_champ3D (he : SoundEnv env) (he' : SoundEnv env') (hM : Multilayer Gi Gx layer)
    (hM' : Multilayer Gi' Gx' layer) (hc : ∀ e ∈ Gi.edges, layer[e.1]? = layer[e.2]?) (hk : 0 < k) (hl : 0 < l)
    (hi : SameNetwork k Gi Gi') (hx : SameNetwork l Gx Gx')
    (hp : ∀ p ∈ parts, p.length = Gi.vcount) (hsame : ∀ p, p ∈ parts ↔ p ∈ parts')
    (hω₀ : ω₀ = l / k * ω₀') (hωf : ωf = l / k * ωf')
    (hr : champ3D env Gi Gx layer parts γ₀ γf ω₀ ωf = (some (.ok doms) : Option _))
    (hr' : champ3D env' Gi' Gx' layer parts' γ₀ γf ω₀' ωf' = (some (.ok doms') : Option _)) :
    doms'.length = doms.length ∧ ∀ d ∈ doms, ∃ d' ∈ doms', SameMultilayer Gi Gx layer d'.2 d.2 ∧
      ∀ γ ω, (γ, ω) ∈ convexHull ℝ {q | q ∈ d'.1} ↔ (γ, l / k * ω) ∈ convexHull ℝ {q | q ∈ d.1} := by
  have hk' : (0 : ℝ) < k := by exact_mod_cast hk
  have hl' : (0 : ℝ) < l := by exact_mod_cast hl
  have hmod := c122_multilayer_modularity (α := α) hk hc hi hx
  obtain ⟨h1, h2⟩ := champ3D_network_one (s := l / k) (by positivity) hk' (fun γ ω p => hmod p γ ω) he he' hM hM' hi.1 hp hsame
    hω₀ hωf hr hr'
  refine ⟨le_antisymm (champ3D_network_one (s := k / l) (c := (k : ℝ)⁻¹) (by positivity) (by positivity) (fun γ ω p => ?_) he' he
    hM' hM hi.1.symm (fun p hp' => by rw [hi.1]; exact hp p ((hsame p).mpr hp')) (fun p => (hsame p).symm)
    (by rw [hω₀]; field_simp) (by rw [hωf]; field_simp) hr' hr).1 h1, h2⟩
  rw [hmod, inv_mul_cancel_left₀ hk'.ne']
  congr 1
  field_simp

end

/-! ### Concrete cases -/

theorem reversed_wf {G : Graph ℝ} (h : G.WF) : (reversed G).WF := by
  refine ⟨fun e he => ?_, fun ws hw => ?_⟩
  · obtain ⟨e', he', rfl⟩ := List.mem_map.mp he
    exact (h.1 e' he').symm
  · simpa [reversed] using h.2 ws hw

theorem copied_wf {G : Graph ℝ} (h : G.WF) (k : Nat) : (copied G k).WF := by
  refine ⟨fun e he => ?_, fun ws hw => by cases hw⟩
  obtain ⟨l, hl, hel⟩ := List.mem_flatten.mp he
  rw [(List.mem_replicate.mp hl).2] at hel
  exact h.1 e hel

/-- three copies of every edge: pruning still keeps the same partitions -/
example : ∃ out G', pruneToStable pruneEnv (copied gReal 3) (.memberships threeParts) 0 2 none false =
    (some (.ok (out, G')) : Option _) ∧ [0, 0, 1, 1, 1] ∈ out := by
  obtain ⟨out, G', h1⟩ := c39_returns pruneEnv_sound exactEnv_exact gReal_wf rfl (by decide) (by decide)
    (by intro h; cases h) (by decide : ∀ p ∈ threeParts, p.length = gReal.vcount) (by norm_num : (0 : ℝ) < 2) none false
  obtain ⟨out', G'', h2⟩ := c39_returns pruneEnv_sound exactEnv_exact (copied_wf gReal_wf 3) rfl (by decide) (by decide)
    (by intro h; cases h) (by decide : ∀ p ∈ threeParts, p.length = (copied gReal 3).vcount) (by norm_num : (0 : ℝ) < 2) none
    false
  refine ⟨out', G'', h2, ?_⟩
  rw [c122_prune (k := 3) (l := 3) pruneEnv_sound pruneEnv_sound rfl gReal_wf (copied_wf gReal_wf 3) (by decide) (by norm_num)
    (c122_repeated gReal 3) (by norm_num) (c122_undirected gReal 3).2.1 (by intro h; cases h) (by intro h; cases h) (by decide)
    (fun _ => Iff.rfl) (fun p hp q hq => threeParts_distinct p q ⟨hp, by simp⟩ ⟨hq, by simp⟩) h1 h2]
  exact threeParts_returned h1

/-- reversed edges: the same ranges -/
example : ∃ ranges ranges', champ2D exactEnv gReal threeParts 0 2 false = (some (.ok ranges) : Option _) ∧
    champ2D exactEnv (reversed gReal) threeParts 0 2 true = (some (.ok ranges') : Option _) ∧
    List.Forall₂ (fun r r' => r'.1 = r.1 ∧ r'.2.1 = r.2.1 ∧ SameModularity gReal r'.2.2 r.2.2) ranges ranges' := by
  obtain ⟨r, h⟩ := c17_returns exactEnv_exact gReal_wf rfl (by decide) (by decide : ∀ p ∈ threeParts, p.length = gReal.vcount)
    (by decide) (by norm_num : (0 : ℝ) < 2) false
  obtain ⟨r', h'⟩ := c17_returns exactEnv_exact (reversed_wf gReal_wf) rfl (by decide)
    (by decide : ∀ p ∈ threeParts, p.length = (reversed gReal).vcount) (by decide) (by norm_num : (0 : ℝ) < 2) true
  exact ⟨r, r', h, h', c122_champ2D (k := 1) exactEnv_exact.toSoundEnv exactEnv_exact.toSoundEnv gReal_wf (reversed_wf gReal_wf)
    one_pos (c122_reversed gReal) (by decide) (fun _ => Iff.rfl) h h'⟩

/-- a two-layer network with every edge twice and every coupling six times: a third of the coupling strength suffices -/
example : ∃ doms doms', champ3D exactEnv gIntraR gInterR [0, 0, 0, 1, 1, 1] [[0, 0, 1, 0, 0, 1], [0, 0, 0, 0, 0, 0]] 0 2 0 6 =
      (some (.ok doms) : Option _) ∧
    champ3D exactEnv (copied gIntraR 2) (copied gInterR 6) [0, 0, 0, 1, 1, 1]
      [[0, 0, 1, 0, 0, 1], [0, 0, 0, 0, 0, 0]] 0 2 0 2 = (some (.ok doms') : Option _) ∧ doms'.length = doms.length := by
  have hM' : Multilayer (copied gIntraR 2) (copied gInterR 6) [0, 0, 0, 1, 1, 1] :=
    ⟨copied_wf gIntraR_multilayer.intra 2, copied_wf gIntraR_multilayer.inter 6, rfl, rfl, Or.inr (by decide)⟩
  obtain ⟨d, h⟩ := c21_returns (parts := [[0, 0, 1, 0, 0, 1], [0, 0, 0, 0, 0, 0]]) exactEnv_exact gIntraR_multilayer rfl
    (by decide) (by decide) (by decide) (by decide) (by norm_num : (0 : ℝ) < 2) (by norm_num : (0 : ℝ) < 6)
  obtain ⟨d', h'⟩ := c21_returns (parts := [[0, 0, 1, 0, 0, 1], [0, 0, 0, 0, 0, 0]]) exactEnv_exact hM' rfl
    (by decide) (by decide) (by decide) (by decide) (by norm_num : (0 : ℝ) < 2) (by norm_num : (0 : ℝ) < 2)
  exact ⟨d, d', h, h', (c122_champ3D (k := 2) (l := 6) exactEnv_exact.toSoundEnv exactEnv_exact.toSoundEnv gIntraR_multilayer
    hM' (by decide) (by norm_num) (by norm_num) (c122_repeated gIntraR 2) (c122_repeated gInterR 6) (by decide)
    (fun _ => Iff.rfl) (by norm_num) (by norm_num) h h').1⟩

end Verif.Props
