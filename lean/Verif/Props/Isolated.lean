import Verif.Spec.Isolated
import Verif.Props.Batches
import Verif.Props.Tradeoff

/-!
# Property C121: vertices without edges
-/

namespace Verif.Props
open Verif Verif.Spec Finset

section
variable {α β : Type} [DecidableEq α] [DecidableEq β] {G : Graph ℝ} {p : List α} {q : List β}

theorem adj_isolated {i j : Nat} (h : ¬ HasEdge G i ∨ ¬ HasEdge G j) : adj G i j = 0 := by
  have h1 : G.edges.count (i, j) = 0 := by
    rw [List.count_eq_zero]
    intro he
    rcases h with h | h
    · exact h ⟨_, he, Or.inl rfl⟩
    · exact h ⟨_, he, Or.inr rfl⟩
  have h2 : G.edges.count (j, i) = 0 := by
    rw [List.count_eq_zero]
    intro he
    rcases h with h | h
    · exact h ⟨_, he, Or.inr rfl⟩
    · exact h ⟨_, he, Or.inl rfl⟩
  unfold adj
  rw [h1, h2]
  simp

theorem rowSum_isolated {i : Nat} (h : ¬ HasEdge G i) : rowSum G i = 0 :=
  Finset.sum_eq_zero fun _ _ => adj_isolated (Or.inl h)

theorem colSum_isolated {i : Nat} (h : ¬ HasEdge G i) : colSum G i = 0 :=
  Finset.sum_eq_zero fun _ _ => adj_isolated (Or.inr h)

theorem withinAdj_agree (h : AgreeOn (HasEdge G) p q) : withinAdj G p = withinAdj G q := by
  unfold withinAdj
  refine Finset.sum_congr rfl fun i _ => Finset.sum_congr rfl fun j _ => ?_
  by_cases hi : HasEdge G i
  · by_cases hj : HasEdge G j
    · simp only [h i j hi hj]
    · rw [adj_isolated (Or.inr hj)]; simp
  · rw [adj_isolated (Or.inl hi)]; simp

theorem withinNull_agree (h : AgreeOn (HasEdge G) p q) : withinNull G p = withinNull G q := by
  unfold withinNull
  refine Finset.sum_congr rfl fun i _ => Finset.sum_congr rfl fun j _ => ?_
  by_cases hi : HasEdge G i
  · by_cases hj : HasEdge G j
    · simp only [h i j hi hj]
    · rw [rowSum_isolated hj]; simp
  · rw [colSum_isolated hi]; simp

theorem withinNullLayered_agree {layer : List Nat} (h : AgreeOn (HasEdge G) p q) :
    withinNullLayered G layer p = withinNullLayered G layer q := by
  unfold withinNullLayered
  refine Finset.sum_congr rfl fun i _ => Finset.sum_congr rfl fun j _ => ?_
  by_cases hi : HasEdge G i
  · by_cases hj : HasEdge G j
    · simp only [h i j hi hj]
    · rw [rowSum_isolated hj]; simp
  · rw [colSum_isolated hi]; simp

/-- **C121.** Partitions that group the vertices with edges in the same way have the same modularity at every resolution. -/
theorem c121_same (h : AgreeOn (HasEdge G) p q) : SameModularity G p q := fun γ => by
  rw [modularity_affine, modularity_affine, withinAdj_agree h, withinNull_agree h]

/-- **C121 (multilayer).** The same with the vertices that have an intralayer or an interlayer edge. -/
theorem c121_same_multilayer {Gi Gx : Graph ℝ} {layer : List Nat} (h : AgreeOn (fun v => HasEdge Gi v ∨ HasEdge Gx v) p q) :
    SameMultilayer Gi Gx layer p q := fun γ ω => by
  have h1 : AgreeOn (HasEdge Gi) p q := fun i j hi hj => h i j (Or.inl hi) (Or.inl hj)
  have h2 : AgreeOn (HasEdge Gx) p q := fun i j hi hj => h i j (Or.inr hi) (Or.inr hj)
  unfold multilayerModularity
  rw [withinAdj_agree h1, withinNullLayered_agree h1, withinAdj_agree h2]

end

section
variable {α : Type} [LinearOrder α] {env : PruneEnv} {G : Graph ℝ} {parts : List (List α)} {γ₀ γf : ℝ}
  {restrict : Option Nat} {st : Bool} {out : List (List Nat)} {G' : Graph ℝ}

/-- **C121 (one of each).** `CHAMP_2D` returns at most one of the partitions that differ in isolated vertices only. -/
theorem c121_champ_one {α : Type} [DecidableEq α] {env : ChampEnv} {parts : List (List α)} {ranges : List (ℝ × ℝ × List α)}
    (he : SoundEnv env) (hG : G.WF) (hp : ∀ p ∈ parts, p.length = G.vcount)
    (h : champ2D env G parts γ₀ γf st = (some (.ok ranges) : Option _)) :
    ranges.Pairwise fun r s => ¬ AgreeOn (HasEdge G) r.2.2 s.2.2 :=
  (c20_no_duplicates he hG hp h).2.imp fun ⟨γ, hne⟩ ha => hne (c121_same ha γ)

/-- **C121 (one of each, pruning).** -/
theorem c121_prune_one (he : SoundPruneEnv env) (hG : G.WF) (hp : ∀ p ∈ parts, p.length = G.vcount)
    (h : pruneToStable env G (.memberships parts) γ₀ γf restrict st = (some (.ok (out, G')) : Option _)) :
    out.Pairwise fun c d => ¬ AgreeOn (HasEdge G) c d :=
  (c38_no_duplicates he hG hp h).2.imp fun hne ha => hne (c121_same ha)

/-- **C121 (one of each, CHAMP_3D).** -/
theorem c121_domains_one {α : Type} [DecidableEq α] {env : ChampEnv} {Gi Gx : Graph ℝ} {layer : List Nat}
    {parts : List (List α)} {ω₀ ωf : ℝ} {doms : List (List (ℝ × ℝ) × List α)} (he : SoundEnv env)
    (hM : Multilayer Gi Gx layer) (hp : ∀ p ∈ parts, p.length = Gi.vcount)
    (h : champ3D env Gi Gx layer parts γ₀ γf ω₀ ωf = (some (.ok doms) : Option _)) :
    doms.Pairwise fun d e => ¬ AgreeOn (fun v => HasEdge Gi v ∨ HasEdge Gx v) d.2 e.2 :=
  (c22_domains_disjoint he hM hp h).2.1.imp fun ⟨γ, ω, hne⟩ ha => hne (c121_same_multilayer ha γ ω)

/-- **C121 (estimates).** On unweighted undirected graphs, partitions that differ in isolated vertices only have the same
gamma estimate, or both none. -/
theorem c121_estimate (hG : G.WF) (hd : G.directed = false) (hm : 0 < G.ecount) {test : Graph ℝ → Bool}
    (hw : CountsAsUnweighted test G) {p q : List α} (hp : p.length = G.vcount) (hq : q.length = G.vcount)
    (ha : AgreeOn (HasEdge G) p q) (γ : ℝ) : HasEstimate test G p γ ↔ HasEstimate test G q γ :=
  same_estimates hG hd hm hw hp hq (c121_same ha)

/-! ### Adding isolated vertices -/

theorem withIsolated_adj (G : Graph ℝ) (k i j : Nat) : adj (withIsolated G k) i j = adj G i j := rfl

theorem hasEdge_lt (hG : G.WF) {v : Nat} (h : HasEdge G v) : v < G.vcount := by
  obtain ⟨e, he, rfl | rfl⟩ := h
  · exact (hG.1 e he).1
  · exact (hG.1 e he).2

theorem sum_withIsolated {M : Type} [AddCommMonoid M] (n k : Nat) {f : Nat → M} (h : ∀ i, n ≤ i → f i = 0) :
    ∑ i ∈ range (n + k), f i = ∑ i ∈ range n, f i := by
  rw [Finset.sum_range_add, Finset.sum_eq_zero (s := range k) (fun i _ => h _ (by omega)), add_zero]

theorem rowSum_withIsolated (hG : G.WF) (k i : Nat) : rowSum (withIsolated G k) i = rowSum G i :=
  sum_withIsolated G.vcount k fun j hj => adj_isolated (Or.inr fun h => by have := hasEdge_lt hG h; omega)

theorem colSum_withIsolated (hG : G.WF) (k i : Nat) : colSum (withIsolated G k) i = colSum G i :=
  sum_withIsolated G.vcount k (f := fun j => adj G j i)
    fun j hj => adj_isolated (Or.inl fun h => by have := hasEdge_lt hG h; omega)

theorem total_withIsolated (hG : G.WF) (k : Nat) : total (withIsolated G k) = total G := by
  show ∑ i ∈ range (G.vcount + k), rowSum (withIsolated G k) i = ∑ i ∈ range G.vcount, rowSum G i
  simp only [rowSum_withIsolated hG]
  exact sum_withIsolated _ _ fun i hi => rowSum_isolated fun h => by have := hasEdge_lt hG h; omega

/-- **C121 (more isolated vertices).** Adding vertices without edges, and giving them any communities, changes the modularity
of no partition at any resolution. -/
theorem c121_padded {α : Type} [DecidableEq α] (hG : G.WF) {p : List α} (hp : p.length = G.vcount) (extra : List α) (γ : ℝ) :
    modularity (withIsolated G extra.length) γ (p ++ extra) = modularity G γ p := by
  have hget : ∀ i, i < G.vcount → (p ++ extra)[i]? = p[i]? := fun i hi => List.getElem?_append_left (by omega)
  have hout : ∀ {i}, G.vcount ≤ i → ¬ HasEdge G i := fun hi h => by have := hasEdge_lt hG h; omega
  unfold modularity
  rw [show (withIsolated G extra.length).vcount = G.vcount + extra.length from rfl, total_withIsolated hG]
  rw [sum_withIsolated G.vcount extra.length]
  · refine Finset.sum_congr rfl fun i hi => ?_
    rw [sum_withIsolated G.vcount extra.length]
    · refine Finset.sum_congr rfl fun j hj => ?_
      rw [Finset.mem_range] at hi hj
      rw [hget i hi, hget j hj, withIsolated_adj, colSum_withIsolated hG, rowSum_withIsolated hG]
    · intro j hj
      rw [withIsolated_adj, adj_isolated (Or.inr (hout hj)), rowSum_withIsolated hG, rowSum_isolated (hout hj)]
      simp
  · intro i hi
    refine Finset.sum_eq_zero fun j _ => ?_
    rw [withIsolated_adj, adj_isolated (Or.inl (hout hi)), colSum_withIsolated hG, colSum_isolated (hout hi)]
    simp

theorem withIsolated_wf (hG : G.WF) (k : Nat) : (withIsolated G k).WF :=
  ⟨fun e he => ⟨by have := (hG.1 e he).1; show _ < G.vcount + k; omega, by have := (hG.1 e he).2; show _ < G.vcount + k; omega⟩,
    hG.2⟩

/-- two runs on different graphs whose partitions match in modularity -/
theorem champ2D_matched_one {α : Type} [DecidableEq α] {env env' : ChampEnv} {G G' : Graph ℝ} {parts parts' : List (List α)}
    {st st' : Bool} {ranges ranges' : List (ℝ × ℝ × List α)} (he : SoundEnv env) (he' : SoundEnv env') (hG : G.WF)
    (hG' : G'.WF) (hp : ∀ p ∈ parts, p.length = G.vcount) (hp' : ∀ p ∈ parts', p.length = G'.vcount)
    (h12 : ∀ p ∈ parts, ∃ p' ∈ parts', ∀ γ, modularity G' γ p' = modularity G γ p)
    (h21 : ∀ p' ∈ parts', ∃ p ∈ parts, ∀ γ, modularity G' γ p' = modularity G γ p)
    (hr : champ2D env G parts γ₀ γf st = (some (.ok ranges) : Option _))
    (hr' : champ2D env' G' parts' γ₀ γf st' = (some (.ok ranges') : Option _)) :
    ∀ r ∈ ranges, ∃ r' ∈ ranges', r'.1 = r.1 ∧ r'.2.1 = r.2.1 ∧ ∀ γ, modularity G' γ r'.2.2 = modularity G γ r.2.2 := by
  intro r hrm
  obtain ⟨h1, h2, h3, h4, hiff⟩ := c17_ranges_correct he hG hp hr r hrm
  obtain ⟨p', hp'm, hmv⟩ := h12 _ h4
  have hstrict := c20_returned_strictly_optimal he hG hp hr r hrm ((r.1 + r.2.1) / 2) (by linarith) (by linarith)
  obtain ⟨r', hr'm, g1, g2, g3⟩ := c20_strictly_optimal_returned he' hG' hp' hr' hp'm (γ := (r.1 + r.2.1) / 2)
    (by linarith) (by linarith) (by
      intro c' hc' ⟨γ', hγ'⟩
      obtain ⟨c, hc, hcm⟩ := h21 c' hc'
      rw [hcm, hmv]
      exact hstrict c hc ⟨γ', by rw [← hcm, ← hmv]; exact hγ'⟩)
  obtain ⟨k1, k2, k3, k4, hiff'⟩ := c17_ranges_correct he' hG' hp' hr' r' hr'm
  have hsame : ∀ γ, modularity G' γ r'.2.2 = modularity G γ r.2.2 := fun γ => by rw [g3, hmv]
  have hset : ∀ γ, (r.1 ≤ γ ∧ γ ≤ r.2.1) ↔ (r'.1 ≤ γ ∧ γ ≤ r'.2.1) := by
    intro γ
    rw [hiff, hiff']
    refine and_congr Iff.rfl ⟨fun hall c' hc' => ?_, fun hall c hc => ?_⟩
    · obtain ⟨c, hc, hcm⟩ := h21 c' hc'
      rw [hcm, hsame]; exact hall c hc
    · obtain ⟨c', hc', hcm⟩ := h12 c hc
      rw [← hcm, ← hsame]; exact hall c' hc'
  refine ⟨r', hr'm, ?_, ?_, hsame⟩
  · exact le_antisymm ((hset r.1).mp ⟨le_rfl, h2.le⟩).1 ((hset r'.1).mpr ⟨le_rfl, k2.le⟩).1
  · exact le_antisymm ((hset r'.2.1).mpr ⟨k2.le, le_rfl⟩).2 ((hset r.2.1).mp ⟨h2.le, le_rfl⟩).2

/-- **C121 (CHAMP_2D with more isolated vertices).** `CHAMP_2D` on the graph with `k` more vertices without edges, and with
partitions extended to them in any way, returns the same list of ranges, each with a partition of the same modularity at
every resolution. -/
theorem c121_champ_padded {α : Type} [DecidableEq α] {env env' : ChampEnv} {parts parts' : List (List α)}
    {st' : Bool} {ranges ranges' : List (ℝ × ℝ × List α)} (he : SoundEnv env) (he' : SoundEnv env') (hG : G.WF) {k : Nat}
    (hp : ∀ p ∈ parts, p.length = G.vcount)
    (h12 : ∀ p ∈ parts, ∃ extra : List α, extra.length = k ∧ p ++ extra ∈ parts')
    (h21 : ∀ p' ∈ parts', ∃ p ∈ parts, ∃ extra : List α, extra.length = k ∧ p' = p ++ extra)
    (hr : champ2D env G parts γ₀ γf st = (some (.ok ranges) : Option _))
    (hr' : champ2D env' (withIsolated G k) parts' γ₀ γf st' = (some (.ok ranges') : Option _)) :
    List.Forall₂ (fun r r' => r'.1 = r.1 ∧ r'.2.1 = r.2.1 ∧
      ∀ γ, modularity (withIsolated G k) γ r'.2.2 = modularity G γ r.2.2) ranges ranges' := by
  have hG' := withIsolated_wf hG k
  have hp' : ∀ p ∈ parts', p.length = (withIsolated G k).vcount := by
    intro p' hp'
    obtain ⟨p, hpp, extra, rfl, rfl⟩ := h21 p' hp'
    rw [List.length_append, hp p hpp]; rfl
  have m12 : ∀ p ∈ parts, ∃ p' ∈ parts', ∀ γ, modularity (withIsolated G k) γ p' = modularity G γ p := by
    intro p hpp
    obtain ⟨extra, rfl, hm⟩ := h12 p hpp
    exact ⟨_, hm, c121_padded hG (hp p hpp) extra⟩
  have m21 : ∀ p' ∈ parts', ∃ p ∈ parts, ∀ γ, modularity (withIsolated G k) γ p' = modularity G γ p := by
    intro p' hp'
    obtain ⟨p, hpp, extra, rfl, rfl⟩ := h21 p' hp'
    exact ⟨p, hpp, c121_padded hG (hp p hpp) extra⟩
  refine sorted_match (fun r => r.1) (fun r => r.1) _ (ranges_sorted he hG hp hr) (ranges_sorted he' hG' hp' hr')
    (fun r hrm => ?_) (fun r' hrm => ?_)
  · obtain ⟨r', hm', e1, e2, e3⟩ := champ2D_matched_one he he' hG hG' hp hp' m12 m21 hr hr' r hrm
    exact ⟨r', hm', e1, e1, e2, e3⟩
  · obtain ⟨r, hm', e1, -⟩ := champ2D_matched_one he' he hG' hG hp' hp (fun p' hp' => by
        obtain ⟨p, hpp, e⟩ := m21 p' hp'
        exact ⟨p, hpp, fun γ => (e γ).symm⟩) (fun p hpp => by
        obtain ⟨p', hp', e⟩ := m12 p hpp
        exact ⟨p', hp', fun γ => (e γ).symm⟩) hr' hr r' hrm
    exact ⟨r, hm', e1.symm⟩

/-! ### Isolated vertices make pruning fail -/

theorem noEdgeBetween_of_withinAdj {α : Type} [DecidableEq α] (hG : G.WF) {p q : List α} (hp : p.length = G.vcount)
    (hq : q.length = G.vcount) (hin : NoEdgeBetween G p) (h : withinAdj G p ≤ withinAdj G q) : NoEdgeBetween G q := by
  rw [withinAdj_edgesWithin hG hp, withinAdj_edgesWithin hG hq] at h
  have hpos : (0 : ℝ) < if G.directed then 1 else 2 := by split <;> norm_num
  have h1 : edgesWithin G p ≤ edgesWithin G q := by exact_mod_cast le_of_mul_le_mul_left h hpos
  have h2 : edgesWithin G p = G.edges.length := by
    unfold edgesWithin
    rw [List.filter_eq_self.mpr fun e he => by simpa using hin e he]
  have h3 : (G.edges.filter fun e => decide (q[e.1]? = q[e.2]?)) = G.edges := by
    refine List.Sublist.eq_of_length_le List.filter_sublist ?_
    have : edgesWithin G q = (G.edges.filter fun e => decide (q[e.1]? = q[e.2]?)).length := rfl
    omega
  intro e he
  rw [← h3] at he
  simpa using (List.mem_filter.mp he).2

theorem one_community {α : Type} [DecidableEq α] (hcon : ConnectedUpToIsolated G) {q : List α} (hG : G.WF)
    (hq : q.length = G.vcount) (hin : NoEdgeBetween G q) (hm : 0 < G.ecount) :
    ∃ r, ∀ e ∈ G.edges, q[e.1]? = some r ∧ q[e.2]? = some r := by
  obtain ⟨f, hf⟩ := List.exists_mem_of_length_pos hm
  have hlt := (hG.1 f hf).1
  refine ⟨q[f.1], fun e he => ?_⟩
  have key : ∀ u v, Relation.ReflTransGen (fun a b => (a, b) ∈ G.edges ∨ (b, a) ∈ G.edges) u v → q[u]? = q[v]? := by
    intro u v h
    induction h with
    | refl => rfl
    | tail _ hs ih =>
      rw [ih]
      rcases hs with hs | hs
      · exact hin _ hs
      · exact (hin _ hs).symm
  have hf' : q[f.1]? = some q[f.1] := List.getElem?_eq_getElem _
  rw [← hf']
  exact ⟨(key f.1 e.1 (hcon _ _ ⟨f, hf, Or.inl rfl⟩ ⟨e, he, Or.inl rfl⟩)).symm,
    (key f.1 e.2 (hcon _ _ ⟨f, hf, Or.inl rfl⟩ ⟨e, he, Or.inr rfl⟩)).symm⟩

/-- the graph the estimates work on -/
theorem ensured (hG : G.WF) (hv : 0 < G.vcount) {test : Graph ℝ → Bool}
    (hw : test G = true → ∃ ws, G.weight = some ws ∧ ∀ w ∈ ws, 0 < w) :
    ∃ G₁ ws, ensureWeight test G.vcount G = .ok G₁ ∧ G₁.WF ∧ G₁.vcount = G.vcount ∧ G₁.edges = G.edges ∧
      G₁.weight = some ws ∧ ∀ w ∈ ws, 0 < w := by
  unfold ensureWeight
  by_cases ht : test G = true
  · obtain ⟨ws, h1, h2⟩ := hw ht
    exact ⟨G, ws, by rw [if_pos ht], hG, rfl, rfl, h1, h2⟩
  · refine ⟨{ G with weight := some (List.replicate G.edges.length 1) }, List.replicate G.edges.length 1,
      by rw [if_neg ht, setEsWeight_ones hv], ⟨hG.1, ?_⟩, rfl, rfl, rfl, ?_⟩
    · intro ws h; rw [← Option.some.inj h]; simp
    · intro w hw'; rw [List.eq_of_mem_replicate hw']; exact one_pos

/-- the gamma estimate either exists (or is `None`), or `ZeroDivisionError` is raised: when the labels are not all 0 and all
edges are in one community -/
theorem gammaEstimate_cases (hG : G.WF) (hm : 0 < G.ecount) {test : Graph ℝ → Bool}
    (hw : test G = true → ∃ ws, G.weight = some ws ∧ ∀ w ∈ ws, 0 < w) {c : List Nat} (hc : c.length = G.vcount) :
    ((∃ r, gammaEstimate test G c = .ok r) ∨ gammaEstimate test G c = .error .zeroDivisionError) ∧
    ((∃ k ∈ c, k ≠ 0) → (∃ r, ∀ e ∈ G.edges, c[e.1]? = some r ∧ c[e.2]? = some r) →
      gammaEstimate test G c = .error .zeroDivisionError) := by
  obtain ⟨G₁, ws, hens, hwf, hv, hE, hws, hpos⟩ := ensured hG (vcount_pos hG hm) hw
  obtain ⟨h1, h2⟩ := c25_zero_division hwf hws hpos (c := c) (by rw [hc, hv])
  have heq : gammaEstimate test G c = (estimateSinglelayerSBM G₁ c none).bind fun r => .ok (gammaFromParameters r.1 r.2, G₁) := by
    unfold gammaEstimate
    rw [hens, Py.ok_bind]
    unfold leidenPartWithMembership
    rw [if_pos (by rw [hc, hv]), Py.ok_bind]
    rfl
  constructor
  · by_cases hz : estimateSinglelayerSBM G₁ c none = .error .zeroDivisionError
    · right; rw [heq, hz]; rfl
    · obtain ⟨r, hr⟩ := h2 hz
      left; exact ⟨_, by rw [heq, hr]; rfl⟩
  · intro hk hr
    rw [heq, h1.mpr (Or.inr ⟨hk, by rw [hE]; exact hr⟩)]
    rfl

/-- labels other than 0 occur in a canonical membership with at least two communities -/
theorem canon_nonzero {p : List α} (h : 2 ≤ p.dedup.length) : ∃ k ∈ canon p, k ≠ 0 :=
  ⟨1, (canon_mem_iff p 1).mpr (by omega), by omega⟩

theorem noEdgeBetween_canon {p : List α} (hG : G.WF) (hp : p.length = G.vcount) :
    NoEdgeBetween G (canon p) ↔ NoEdgeBetween G p := by
  refine forall₂_congr fun e he => ?_
  have := hG.1 e he
  exact (canon_same p).2 e.1 e.2 (by rw [canon_length]; omega) (by rw [canon_length]; omega)

/-- some returned range carries a partition whose estimation fails -/
theorem failing_range {ps : List (List Nat)} (he : SoundPruneEnv env) (hG : G.WF) (hm : 0 < G.ecount)
    (hw : env.test G = true → ∃ ws, G.weight = some ws ∧ ∀ w ∈ ws, 0 < w) (hp : ∀ p ∈ parts, p.length = G.vcount)
    (h0 : γ₀ ≤ 0) (hf : 0 ≤ γf) (hcon : ConnectedUpToIsolated G) {p : List α} (hpc : Candidate parts restrict p)
    (hin : NoEdgeBetween G p) (hmany : ∀ q, Candidate parts restrict q → NoEdgeBetween G q → 2 ≤ q.dedup.length)
    (hps : ∀ c, c ∈ ps ↔ ∃ p, Candidate parts restrict p ∧ canon p = c) {ranges : List (ℝ × ℝ × List Nat)}
    (hch : champ2D env.toChampEnv G ps γ₀ γf st = (some (.ok ranges) : Option _)) :
    ∃ r ∈ ranges, gammaEstimate env.test G r.2.2 = .error .zeroDivisionError := by
  have hlen : ∀ c ∈ ps, c.length = G.vcount := by
    intro c hc
    obtain ⟨p, hpc, rfl⟩ := (hps c).mp hc
    rw [canon_length]; exact hp p hpc.1
  have hpm : canon p ∈ ps := (hps _).mpr ⟨p, hpc, rfl⟩
  obtain ⟨r, hr, -, -, hopt⟩ := c18_ranges_cover he.toSoundEnv hG hlen (List.ne_nil_of_mem hpm) hch h0 hf
  have hrm := (c17_ranges_correct he.toSoundEnv hG hlen hch r hr).2.2.2.1
  have hle := hopt _ hpm
  rw [modularity_affine, modularity_affine, zero_mul, zero_mul, sub_zero, sub_zero] at hle
  have hin' := noEdgeBetween_of_withinAdj hG (hlen _ hpm) (hlen _ hrm)
    ((noEdgeBetween_canon hG (hp p hpc.1)).mpr hin) hle
  obtain ⟨q, hqc, hqr⟩ := (hps _).mp hrm
  have hq2 := hmany q hqc ((noEdgeBetween_canon hG (hp q hqc.1)).mp (by rw [hqr]; exact hin'))
  exact ⟨r, hr, (gammaEstimate_cases hG hm hw (hlen _ hrm)).2 (by rw [← hqr]; exact canon_nonzero hq2)
    (one_community hcon hG (hlen _ hrm) hin' hm)⟩

/-- **C121 (isolated vertices make pruning fail).** A graph that is connected up to isolated vertices, positive weights if
igraph reports weights, a window containing resolution 0; some candidate has no edge between communities, and every such
candidate has at least two communities (as when an isolated vertex is a community of its own, which is what community
detection at small resolutions returns).  Then `prune_to_stable_partitions` never returns, whatever the solver and the
schedule. -/
theorem c121_never_returns (he : SoundPruneEnv env) (hG : G.WF) (hm : 0 < G.ecount)
    (hw : env.test G = true → ∃ ws, G.weight = some ws ∧ ∀ w ∈ ws, 0 < w) (hp : ∀ p ∈ parts, p.length = G.vcount)
    (h0 : γ₀ ≤ 0) (hf : 0 ≤ γf) (hcon : ConnectedUpToIsolated G) {p : List α} (hpc : Candidate parts restrict p)
    (hin : NoEdgeBetween G p) (hmany : ∀ q, Candidate parts restrict q → NoEdgeBetween G q → 2 ≤ q.dedup.length) :
    pruneToStable env G (.memberships parts) γ₀ γf restrict st ≠ (some (.ok (out, G')) : Option _) := by
  intro h
  obtain ⟨ps, ⟨-, hps⟩, ranges, hch, hest, -, -⟩ := pruneToStable_facts he h
  obtain ⟨r, hr, hz⟩ := failing_range he hG hm hw hp h0 hf hcon hpc hin hmany hps hch
  obtain ⟨e, hE⟩ := hest r hr
  rw [hz] at hE
  cases hE

/-- **C121 (the exception).** With an exact LP solver and an undirected graph, `ZeroDivisionError` is raised. -/
theorem c121_raises (he : SoundPruneEnv env) (hx : ExactEnv env.toChampEnv) (hG : G.WF) (hd : G.directed = false)
    (hm : 0 < G.ecount) (hw : env.test G = true → ∃ ws, G.weight = some ws ∧ ∀ w ∈ ws, 0 < w)
    (hp : ∀ p ∈ parts, p.length = G.vcount) (h0 : γ₀ ≤ 0) (hf : 0 < γf) (hcon : ConnectedUpToIsolated G) {p : List α}
    (hpc : Candidate parts restrict p) (hin : NoEdgeBetween G p)
    (hmany : ∀ q, Candidate parts restrict q → NoEdgeBetween G q → 2 ≤ q.dedup.length) :
    pruneToStable env G (.memberships parts) γ₀ γf restrict st = (some (.error .zeroDivisionError) : Option _) := by
  have hv := vcount_pos hG hm
  obtain ⟨ps, hps, hmem⟩ : ∃ ps, restrictParts env.setOrder restrict (env.setOrder (parts.map canon)) = .ok ps ∧
      (∀ c, c ∈ ps ↔ ∃ p, Candidate parts restrict p ∧ canon p = c) := by
    have hcan : ∀ c ∈ env.setOrder (parts.map canon), canon c = c ∧ c.length = G.vcount := by
      intro c hc
      rw [he.setMem] at hc
      obtain ⟨p, hpp, rfl⟩ := List.mem_map.mp hc
      exact ⟨canon_idem p, by rw [canon_length]; exact hp p hpp⟩
    obtain ⟨ps, hps⟩ : ∃ ps, restrictParts env.setOrder restrict (env.setOrder (parts.map canon)) = .ok ps := by
      cases restrict with
      | none => exact ⟨_, rfl⟩
      | some K =>
        refine ⟨_, restrictParts_ok (fun c hc => (hcan c hc).1) (fun c hc hn => ?_)⟩
        have := (hcan c hc).2
        rw [hn] at this
        simp at this
        omega
    exact ⟨ps, hps, (candidates_ok he (canonicalParts_ok _ parts) hps).2⟩
  have hlen : ∀ c ∈ ps, c.length = G.vcount := by
    intro c hc
    obtain ⟨p, hpc, rfl⟩ := (hmem c).mp hc
    rw [canon_length]; exact hp p hpc.1
  have hpm : canon p ∈ ps := (hmem _).mpr ⟨p, hpc, rfl⟩
  obtain ⟨ranges, hch⟩ := c17_returns hx hG hd hm hlen (List.ne_nil_of_mem hpm) (by linarith : γ₀ < γf) st
  obtain ⟨r, hr, hz⟩ := failing_range he hG hm hw hp h0 hf.le hcon hpc hin hmany hmem hch
  have hmemr : ∀ r ∈ ranges, r.2.2.length = G.vcount := fun r hr =>
    hlen _ (c17_ranges_correct he.toSoundEnv hG hlen hch r hr).2.2.2.1
  obtain ⟨G₁, ws, hens, -⟩ := ensured hG hv hw
  have hloop : ∀ (ranges : List (ℝ × ℝ × List Nat)) (G₀ : Graph ℝ), (G₀ = G ∨ G₀ = G₁) →
      (∀ r ∈ ranges, r.2.2.length = G.vcount) → (∃ r ∈ ranges, gammaEstimate env.test G r.2.2 = .error .zeroDivisionError) →
      rangesToGammaEstimates env.test G₀ ranges = .error .zeroDivisionError := by
    intro ranges
    induction ranges with
    | nil => rintro G₀ - - ⟨r, hr, -⟩; simp at hr
    | cons r rest ih =>
      rintro G₀ hG₀ hl ⟨r', hr', hz⟩
      have heq : gammaEstimate env.test G₀ r.2.2 = gammaEstimate env.test G r.2.2 := by
        rcases hG₀ with rfl | rfl
        · rfl
        · exact gammaEstimate_thread hens r.2.2
      unfold rangesToGammaEstimates
      rw [heq]
      rcases (gammaEstimate_cases hG hm hw (hl r List.mem_cons_self)).1 with ⟨⟨e, G₂⟩, hok⟩ | herr
      · rw [hok, Py.ok_bind]
        have hG₂ : G₂ = G₁ := by
          unfold gammaEstimate at hok
          rw [hens, Py.ok_bind] at hok
          obtain ⟨c, -, hok⟩ := Py.bind_ok.1 hok
          obtain ⟨c, -, hok⟩ := Py.bind_ok.1 hok
          exact (Prod.mk.inj (Except.ok.inj hok)).2.symm
        rw [ih G₂ (Or.inr hG₂) (fun r hr => hl r (List.mem_cons_of_mem _ hr)) ?_]
        · rfl
        · rcases List.mem_cons.mp hr' with rfl | hr'
          · rw [hok] at hz; cases hz
          · exact ⟨r', hr', hz⟩
      · rw [herr]; rfl
  have hest := hloop ranges G (Or.inl rfl) hmemr ⟨r, hr, hz⟩
  have hok : ∀ {A B : Type} (a : A) (f : A → Run B), (Run.ofPy (.ok a) >>= f) = f a := fun _ _ => rfl
  have hsome : ∀ {A B : Type} {x : Run A} {a : A} (f : A → Run B), x = (some (.ok a) : Option (Except PyErr A)) →
      (x >>= f) = f a := fun _ h => by rw [h]; rfl
  have herr : ∀ {A B : Type} (e : PyErr) (f : A → Run B), (Run.ofPy (.error e) >>= f) = (some (.error e) : Option _) :=
    fun _ _ => rfl
  unfold pruneToStable
  rw [canonicalParts_ok, hok, hps, hok, if_neg (fun h => List.ne_nil_of_mem hpm (List.length_eq_zero_iff.mp h)), hsome _ hch,
    hest, herr]

end

/-! ### Witnesses -/

/-- a path on three vertices and an isolated vertex -/
def gIso : Graph ℝ := withIsolated ⟨3, false, [(0, 1), (1, 2)], none⟩ 1

theorem gIso_wf : gIso.WF := ⟨by decide, by intro ws h; cases h⟩

theorem gIso_connected : ConnectedUpToIsolated gIso := by
  have hv : ∀ v, HasEdge gIso v → v = 0 ∨ v = 1 ∨ v = 2 := by
    rintro v ⟨e, he, h⟩
    simp only [gIso, withIsolated, List.mem_cons, List.not_mem_nil, or_false] at he
    rcases he with rfl | rfl <;> simp only at h <;> omega
  have h01 : (fun a b => (a, b) ∈ gIso.edges ∨ (b, a) ∈ gIso.edges) 0 1 := Or.inl (by decide)
  have h12 : (fun a b => (a, b) ∈ gIso.edges ∨ (b, a) ∈ gIso.edges) 1 2 := Or.inl (by decide)
  have h10 : (fun a b => (a, b) ∈ gIso.edges ∨ (b, a) ∈ gIso.edges) 1 0 := Or.inr (by decide)
  have h21 : (fun a b => (a, b) ∈ gIso.edges ∨ (b, a) ∈ gIso.edges) 2 1 := Or.inr (by decide)
  intro u v hu hv'
  have to1 : Relation.ReflTransGen (fun a b => (a, b) ∈ gIso.edges ∨ (b, a) ∈ gIso.edges) u 1 := by
    rcases hv u hu with rfl | rfl | rfl
    · exact .single h01
    · exact .refl
    · exact .single h21
  rcases hv v hv' with rfl | rfl | rfl
  · exact to1.tail h10
  · exact to1
  · exact to1.tail h12

/-- pruning the two partitions `{0,1,2},{3}` and `{0},{1},{2},{3}` fails … -/
example : pruneToStable pruneEnv gIso (.memberships [[0, 0, 0, 1], [0, 1, 2, 3]]) 0 2 none false =
    (some (.error .zeroDivisionError) : Option _) :=
  c121_raises (p := [0, 0, 0, 1]) pruneEnv_sound exactEnv_exact gIso_wf rfl (by decide) (by intro h; cases h) (by decide) le_rfl
    (by norm_num) gIso_connected ⟨by decide, by simp⟩ (by unfold NoEdgeBetween; decide) (by
      rintro q ⟨hq, -⟩ -
      simp only [List.mem_cons, List.not_mem_nil, or_false] at hq
      rcases hq with rfl | rfl <;> decide)

/-- … on the largest component it returns -/
example : ∃ out G', pruneToStable pruneEnv ⟨3, false, [(0, 1), (1, 2)], none⟩ (.memberships [[0, 0, 0], [0, 1, 2]]) 0 2 none
    false = (some (.ok (out, G')) : Option _) :=
  c39_returns pruneEnv_sound exactEnv_exact ⟨by decide, by intro ws h; cases h⟩ rfl (by decide) (by decide)
    (by intro h; cases h) (by decide) (by norm_num) none false

/-- and `CHAMP_2D` gives the same ranges with and without the isolated vertex -/
example : ∃ ranges ranges', champ2D exactEnv (⟨3, false, [(0, 1), (1, 2)], none⟩ : Graph ℝ) [[0, 0, 0], [0, 1, 2]] 0 2 false =
      (some (.ok ranges) : Option _) ∧
    champ2D exactEnv gIso [[0, 0, 0, 1], [0, 1, 2, 3], [0, 1, 2, 0]] 0 2 false = (some (.ok ranges') : Option _) ∧
    ranges.map (fun r => (r.1, r.2.1)) = ranges'.map (fun r => (r.1, r.2.1)) := by
  have hw : (⟨3, false, [(0, 1), (1, 2)], none⟩ : Graph ℝ).WF := ⟨by decide, by intro ws h; cases h⟩
  obtain ⟨ranges, h⟩ := c17_returns (parts := [[0, 0, 0], [0, 1, 2]]) exactEnv_exact hw rfl (by decide) (by decide) (by decide)
    (by norm_num : (0 : ℝ) < 2) false
  obtain ⟨ranges', h'⟩ := c17_returns (parts := [[0, 0, 0, 1], [0, 1, 2, 3], [0, 1, 2, 0]]) exactEnv_exact gIso_wf rfl
    (by decide) (by decide) (by decide) (by norm_num : (0 : ℝ) < 2) false
  refine ⟨ranges, ranges', h, h', ?_⟩
  have hF := c121_champ_padded (k := 1) exactEnv_exact.toSoundEnv exactEnv_exact.toSoundEnv hw (by decide) (fun p hp => ?_)
    (fun p hp => ?_) h h'
  · have : ∀ {A B : List (ℝ × ℝ × List Nat)} {R : (ℝ × ℝ × List Nat) → (ℝ × ℝ × List Nat) → Prop},
        List.Forall₂ (fun r r' => r'.1 = r.1 ∧ r'.2.1 = r.2.1 ∧ R r r') A B →
        A.map (fun r => (r.1, r.2.1)) = B.map (fun r => (r.1, r.2.1)) := by
      intro A B R hF
      induction hF with
      | nil => rfl
      | cons hab _ ih => rw [List.map_cons, List.map_cons, ih, hab.1, hab.2.1]
    exact this hF
  · simp only [List.mem_cons, List.not_mem_nil, or_false] at hp
    rcases hp with rfl | rfl
    · exact ⟨[1], rfl, by decide⟩
    · exact ⟨[3], rfl, by decide⟩
  · simp only [List.mem_cons, List.not_mem_nil, or_false] at hp
    rcases hp with rfl | rfl | rfl
    · exact ⟨[0, 0, 0], by decide, [1], rfl, rfl⟩
    · exact ⟨[0, 1, 2], by decide, [3], rfl, rfl⟩
    · exact ⟨[0, 1, 2], by decide, [0], rfl, rfl⟩

end Verif.Props
