import Verif.Spec.Extremes
import Verif.Props.Merge
import Verif.Props.FixedPoint

/-!
# Property C127: beyond which resolutions partitions become trivial
-/

namespace Verif.Props
open Verif Verif.Spec Finset

variable {α : Type} [DecidableEq α] {env : ChampEnv} {G : Graph ℝ} {parts : List (List α)} {γ₀ γf Γ γ : ℝ} {st : Bool}
  {ranges : List (ℝ × ℝ × List α)} {c s : List α}

theorem nodup_of_same {β δ : Type} {s : List β} {t : List δ} (h : SamePartition s t) (ht : t.Nodup) : s.Nodup := by
  rw [List.nodup_iff_injective_get]
  intro i j hij
  have h1 := (h.2 i j i.2 j.2).mp (by
    rw [List.getElem?_eq_getElem i.2, List.getElem?_eq_getElem j.2]; exact congrArg some hij)
  have hi : (i : Nat) < t.length := by rw [← h.1]; exact i.2
  have hj : (j : Nat) < t.length := by rw [← h.1]; exact j.2
  rw [List.getElem?_eq_getElem hi, List.getElem?_eq_getElem hj] at h1
  exact Fin.ext ((List.Nodup.getElem_inj_iff ht).mp (Option.some.inj h1))

theorem canon_one {β : Type} [LinearOrder β] {p : List β} (hone : ∀ x ∈ p, ∀ y ∈ p, x = y) : ∀ x ∈ canon p, ∀ y ∈ canon p, x = y := by
  intro x hx y hy
  obtain ⟨i, hi, rfl⟩ := List.getElem_of_mem hx
  obtain ⟨j, hj, rfl⟩ := List.getElem_of_mem hy
  have hi' : i < p.length := by rwa [canon_length] at hi
  have hj' : j < p.length := by rwa [canon_length] at hj
  have := ((canon_same p).2 i j hi hj).mpr (by
    rw [List.getElem?_eq_getElem hi', List.getElem?_eq_getElem hj']
    exact congrArg some (hone _ (List.getElem_mem _) _ (List.getElem_mem _)))
  rw [List.getElem?_eq_getElem hi, List.getElem?_eq_getElem hj] at this
  exact Option.some.inj this

theorem total_pos_of_expected (h : EveryPairExpected G) {i j : Nat} (hij : i < j) (hj : j < G.vcount) : 0 < total G := by
  have h0 := h i j hij hj
  by_contra hno
  have ht : total G = 0 := by omega
  have hr : ∀ k < G.vcount, rowSum G k = 0 := by
    intro k hk
    have : ∑ k ∈ range G.vcount, rowSum G k = 0 := ht
    exact (Finset.sum_eq_zero_iff.mp this) k (Finset.mem_range.mpr hk)
  rw [hr i (by omega), hr j hj] at h0
  simp at h0

/-- **C127 (comparison).** At a resolution above `Γ`, the partition into single vertices is better than every other one. -/
theorem c127_singletons_best (hΓ : NoPairAbove G Γ) (hE : EveryPairExpected G) (hc : c.length = G.vcount) (hs : s.length = G.vcount)
    (hsn : s.Nodup) (hcn : ¬ c.Nodup) (hγ : Γ < γ) : modularity G γ c < modularity G γ s := by
  let a : Nat → Nat → ℝ := fun i j => (adj G i j : ℝ) - γ * ((colSum G i : ℝ) * (rowSum G j : ℝ) / (total G : ℝ))
  let f : Nat → Nat → ℝ := fun i j => (if c[i]? = c[j]? then a i j else 0) - if s[i]? = s[j]? then a i j else 0
  have hD : modularity G γ c - modularity G γ s = ∑ i ∈ range G.vcount, ∑ j ∈ range G.vcount, f i j := by
    unfold modularity
    rw [← Finset.sum_sub_distrib]
    refine Finset.sum_congr rfl fun i _ => ?_
    rw [← Finset.sum_sub_distrib]
  have hsw : ∑ i ∈ range G.vcount, ∑ j ∈ range G.vcount, f i j = ∑ i ∈ range G.vcount, ∑ j ∈ range G.vcount, f j i :=
    Finset.sum_comm
  have hs' : ∀ i < G.vcount, ∀ j < G.vcount, s[i]? = s[j]? → i = j := by
    intro i hi j hj h
    rw [List.getElem?_eq_getElem (by omega), List.getElem?_eq_getElem (by omega)] at h
    exact (List.Nodup.getElem_inj_iff hsn).mp (Option.some.inj h)
  have hneg : ∀ i j, i < j → j < G.vcount → a i j + a j i < 0 := by
    intro i j hij hj
    have h1 := hΓ i j hij hj
    have h2 : (0 : ℝ) < (colSum G i : ℝ) * rowSum G j + (colSum G j : ℝ) * rowSum G i := by exact_mod_cast hE i j hij hj
    have hT : (0 : ℝ) < total G := by exact_mod_cast total_pos_of_expected hE hij hj
    have h3 : (total G : ℝ) * ((adj G i j : ℝ) + adj G j i) < γ * ((colSum G i : ℝ) * rowSum G j + (colSum G j : ℝ) * rowSum G i) :=
      lt_of_le_of_lt h1 (mul_lt_mul_of_pos_right hγ h2)
    have e : (total G : ℝ) * (a i j + a j i) =
        (total G : ℝ) * ((adj G i j : ℝ) + adj G j i) - γ * ((colSum G i : ℝ) * rowSum G j + (colSum G j : ℝ) * rowSum G i) := by
      simp only [a]
      field_simp
      ring
    by_contra hno
    have := mul_nonneg hT.le (not_lt.mp hno)
    linarith
  have hsym : ∀ i j, i < G.vcount → j < G.vcount → i ≠ j → a i j + a j i < 0 := by
    intro i j hi hj hij
    rcases Nat.lt_or_gt_of_ne hij with h | h
    · exact hneg i j h hj
    · rw [add_comm]; exact hneg j i h hi
  have hle : ∀ i < G.vcount, ∀ j < G.vcount, f i j + f j i ≤ 0 := by
    intro i hi j hj
    by_cases hij : i = j
    · subst hij; simp [f]
    · have n1 : ¬ s[i]? = s[j]? := fun h => hij (hs' i hi j hj h)
      have n2 : ¬ s[j]? = s[i]? := fun h => n1 h.symm
      simp only [f, if_neg n1, if_neg n2, sub_zero]
      by_cases hcc : c[i]? = c[j]?
      · rw [if_pos hcc, if_pos hcc.symm]; exact (hsym i j hi hj hij).le
      · rw [if_neg hcc, if_neg (fun h => hcc h.symm)]; simp
  obtain ⟨i, j, hij, hi, hj, hcc⟩ : ∃ i j, i ≠ j ∧ i < G.vcount ∧ j < G.vcount ∧ c[i]? = c[j]? := by
    rw [List.nodup_iff_injective_get] at hcn
    unfold Function.Injective at hcn
    push Not at hcn
    obtain ⟨i, j, h, hne⟩ := hcn
    refine ⟨i, j, fun h => hne (Fin.ext h), by omega, by omega, ?_⟩
    rw [List.getElem?_eq_getElem i.2, List.getElem?_eq_getElem j.2]
    exact congrArg some h
  have hlt : ∑ i ∈ range G.vcount, ∑ j ∈ range G.vcount, (f i j + f j i) < 0 := by
    refine Finset.sum_neg' (fun i hi => Finset.sum_nonpos fun j hj => hle i (Finset.mem_range.mp hi) j (Finset.mem_range.mp hj))
      ⟨i, Finset.mem_range.mpr hi, Finset.sum_neg' (fun j hj => hle i hi j (Finset.mem_range.mp hj)) ⟨j, Finset.mem_range.mpr hj, ?_⟩⟩
    have n1 : ¬ s[i]? = s[j]? := fun h => hij (hs' i hi j hj h)
    have n2 : ¬ s[j]? = s[i]? := fun h => n1 h.symm
    simp only [f, if_neg n1, if_neg n2, sub_zero]
    rw [if_pos hcc, if_pos hcc.symm]
    exact hsym i j hi hj hij
  simp only [Finset.sum_add_distrib] at hlt
  rw [← hsw, ← hD] at hlt
  linarith

/-- **C127 (end of the ranges).** If the partition into single vertices was given, every other range ends at `Γ` or earlier. -/
theorem c127_champ (he : SoundEnv env) (hG : G.WF) (hp : ∀ c ∈ parts, c.length = G.vcount)
    (h : champ2D env G parts γ₀ γf st = (some (.ok ranges) : Option _)) (hΓ : NoPairAbove G Γ) (hE : EveryPairExpected G)
    (hs : s ∈ parts) (hsn : s.Nodup) {r : ℝ × ℝ × List α} (hr : r ∈ ranges) (hrn : ¬ r.2.2.Nodup) : r.2.1 ≤ Γ := by
  obtain ⟨-, h2, -, hmem, hiff⟩ := c17_ranges_correct he hG hp h r hr
  by_contra hno
  have := ((hiff r.2.1).mp ⟨h2.le, le_rfl⟩).2 s hs
  have := c127_singletons_best hΓ hE (hp _ hmem) (hp _ hs) hsn hrn (not_le.mp hno)
  linarith

theorem adj_le_product (i j : Nat) (hi : i < G.vcount) (hj : j < G.vcount) : adj G i j ≤ rowSum G i * colSum G j := by
  have h1 : adj G i j ≤ rowSum G i :=
    Finset.single_le_sum (f := fun j => adj G i j) (fun _ _ => Nat.zero_le _) (Finset.mem_range.mpr hj)
  have h2 : adj G i j ≤ colSum G j :=
    Finset.single_le_sum (f := fun i => adj G i j) (fun _ _ => Nat.zero_le _) (Finset.mem_range.mpr hi)
  rcases Nat.eq_zero_or_pos (colSum G j) with h0 | h0
  · omega
  · exact h1.trans (Nat.le_mul_of_pos_right _ h0)

/-- **C127 (a bound for every graph).** `Γ` can always be taken to be the total of the adjacency matrix (`2m`, directed `m`). -/
theorem c127_total (G : Graph ℝ) : NoPairAbove G (total G) := by
  intro i j hij hj
  have h1 := adj_le_product (G := G) i j (by omega) hj
  have h2 := adj_le_product (G := G) j i hj (by omega)
  refine mul_le_mul_of_nonneg_left ?_ (Nat.cast_nonneg _)
  have : adj G i j + adj G j i ≤ colSum G i * rowSum G j + colSum G j * rowSum G i := by
    rw [Nat.mul_comm (colSum G i), Nat.mul_comm (colSum G j)]
    omega
  exact_mod_cast this

/-! ### The lower end -/

/-- **C127 (connected graphs).** In a connected graph, a partition into `K` communities cuts at least `K - 1` edges. -/
theorem c127_cut (hG : G.WF) (hcon : G.IsConnected) : ∀ (K : Nat) (c : List α), c.length = G.vcount → c.dedup.length = K →
    edgesWithin G c + K ≤ G.ecount + 1 := by
  intro K
  induction K using Nat.strong_induction_on with
  | _ K ih =>
  intro c hc hK
  have hle : edgesWithin G c ≤ G.ecount := List.length_filter_le _ _
  by_cases h1 : K ≤ 1
  · omega
  obtain ⟨e, he, hne⟩ : ∃ e ∈ G.edges, ¬ c[e.1]? = c[e.2]? := by
    by_contra hall
    push Not at hall
    have hpath : ∀ u v, Relation.ReflTransGen G.Step u v → c[u]? = c[v]? := by
      intro u v huv
      induction huv with
      | refl => rfl
      | tail _ hstep ih =>
        rcases hstep with h | ⟨-, h⟩
        · exact ih.trans (hall _ h)
        · exact ih.trans (hall _ h).symm
    have hall' : ∀ x ∈ c, ∀ y ∈ c, x = y := by
      intro x hx y hy
      obtain ⟨i, hi, rfl⟩ := List.getElem_of_mem hx
      obtain ⟨j, hj, rfl⟩ := List.getElem_of_mem hy
      have := hpath i j (hcon.2 i (by omega) j (by omega))
      rw [List.getElem?_eq_getElem hi, List.getElem?_eq_getElem hj] at this
      exact Option.some.inj this
    have : c.toFinset.card ≤ 1 := Finset.card_le_one.mpr fun x hx y hy =>
      hall' x (List.mem_toFinset.mp hx) y (List.mem_toFinset.mp hy)
    rw [List.card_toFinset] at this
    omega
  have hw := hG.1 e he
  have l1 : e.1 < c.length := by omega
  have l2 : e.2 < c.length := by omega
  rw [List.getElem?_eq_getElem l1, List.getElem?_eq_getElem l2] at hne
  obtain ⟨a, ha⟩ : ∃ a, c[e.1] = a := ⟨_, rfl⟩
  obtain ⟨b, hb⟩ : ∃ b, c[e.2] = b := ⟨_, rfl⟩
  rw [ha, hb] at hne
  have hab : a ≠ b := fun h => hne (congrArg some h)
  let d := c.map fun x => if x = b then a else x
  have hm : MergedFrom d c a b := by
    refine ⟨hab, by simp [d], fun i j hi hj => ?_⟩
    simp only [d, List.getElem?_map, List.getElem?_eq_getElem hi, List.getElem?_eq_getElem hj, Option.map_some, Option.some.injEq]
    by_cases h1 : c[i] = b <;> by_cases h2 : c[j] = b
    · simp [h1, h2]
    · rw [if_pos h1, if_neg h2]
      constructor
      · intro h; exact Or.inr (Or.inr ⟨h1, h.symm⟩)
      · rintro (h | ⟨-, h⟩ | ⟨-, h⟩)
        · exact absurd (h.symm.trans h1) h2
        · exact absurd h h2
        · exact h.symm
    · rw [if_neg h1, if_pos h2]
      constructor
      · intro h; exact Or.inr (Or.inl ⟨h, h2⟩)
      · rintro (h | ⟨h, -⟩ | ⟨h, -⟩)
        · exact absurd (h.trans h2) h1
        · exact h
        · exact absurd h h1
    · simp [h1, h2]
  have hd : d.toFinset = c.toFinset.erase b := by
    ext x
    simp only [d, List.mem_toFinset, List.mem_map, Finset.mem_erase]
    constructor
    · rintro ⟨y, hy, rfl⟩
      by_cases h : y = b
      · rw [if_pos h]; exact ⟨hab, ha ▸ List.getElem_mem _⟩
      · rw [if_neg h]; exact ⟨h, hy⟩
    · rintro ⟨hx, hxc⟩
      exact ⟨x, hxc, if_neg hx⟩
  have hbc : b ∈ c.toFinset := List.mem_toFinset.mpr (hb ▸ List.getElem_mem _)
  have hcard := Finset.card_erase_of_mem hbc
  rw [← hd, List.card_toFinset, List.card_toFinset, hK] at hcard
  have := ih (K - 1) (by omega) d (by simp [d, hc]) hcard
  have hmg := edgesWithin_merged hG hc hm
  have hpos : 0 < edgesBetween G c a b := by
    unfold edgesBetween
    refine List.length_pos_of_mem (List.mem_filter.mpr ⟨he, ?_⟩)
    rw [decide_eq_true_eq, List.getElem?_eq_getElem l1, List.getElem?_eq_getElem l2, ha, hb]
    exact Or.inl ⟨rfl, rfl⟩
  omega

/-- in a connected undirected graph, at resolutions below `K / m` one community is better than `K ≥ 2` communities -/
theorem c127_one_best (hG : G.WF) (hdir : G.directed = false) (hcon : G.IsConnected) (hc : c.length = G.vcount) (hs : s.length = G.vcount)
    (hone : ∀ x ∈ s, ∀ y ∈ s, x = y) (hK : 2 ≤ c.dedup.length) (hγ : γ * G.ecount < c.dedup.length) :
    modularity G γ c < modularity G γ s := by
  have hcut := c127_cut hG hcon _ c hc rfl
  have hcut' : (edgesWithin G c : ℝ) + c.dedup.length ≤ G.ecount + 1 := by exact_mod_cast hcut
  have hm : 0 < G.ecount := by omega
  have hall : ∀ i j, i < G.vcount → j < G.vcount → s[i]? = s[j]? := by
    intro i j hi hj
    rw [List.getElem?_eq_getElem (by omega), List.getElem?_eq_getElem (by omega)]
    exact congrArg some (hone _ (List.getElem_mem _) _ (List.getElem_mem _))
  have hT : (total G : ℝ) = 2 * G.ecount := by rw [total_eq (F := ℝ) hG]; simp [hdir]
  have hlow := withinNull_lower (F := ℝ) hG hdir hm hc
  have hup := withinNull_le (F := ℝ) G c
  rw [modularity_affine, modularity_affine, withinAdj_all hall, withinNull_all hall, withinAdj_edgesWithin hG hc, hdir]
  rw [hT] at hlow hup ⊢
  simp only [Bool.false_eq_true, if_false]
  have hK' : (2 : ℝ) ≤ c.dedup.length := by exact_mod_cast hK
  generalize (c.dedup.length : ℝ) = K at *
  generalize withinNull G c = P at *
  generalize (G.ecount : ℝ) = m at *
  have hP : 2 * m - P ≤ 2 * m * (1 - 1 / K) := by
    have : 2 * m / K ≤ P := by rw [div_le_iff₀ (by linarith)]; linarith
    have e : 2 * m * (1 - 1 / K) = 2 * m - 2 * m / K := by ring
    linarith
  have hfin : γ * (2 * m - P) < 2 * (K - 1) := by
    rcases le_or_gt γ 0 with h0 | h0
    · have := mul_nonneg (neg_nonneg.mpr h0) (show 0 ≤ 2 * m - P by linarith)
      linarith
    · have h1 := mul_le_mul_of_nonneg_left hP h0.le
      have h2 : γ * (2 * m * (1 - 1 / K)) = 2 * (1 - 1 / K) * (γ * m) := by ring
      have h3 : 0 < 2 * (1 - 1 / K) := by
        have : 1 / K ≤ 1 / 2 := one_div_le_one_div_of_le (by norm_num) hK'
        linarith
      have h4 := mul_lt_mul_of_pos_left hγ h3
      have h5 : 2 * (1 - 1 / K) * K = 2 * (K - 1) := by field_simp
      linarith
  linarith

/-- **C127 (number of communities).** On a connected undirected graph with the partition into one community given, the range of a
partition into `K ≥ 2` communities starts at `K / m` or later: at resolution `γ` there are never more than `γ m` communities. -/
theorem c127_communities (he : SoundEnv env) (hG : G.WF) (hdir : G.directed = false) (hcon : G.IsConnected)
    (hp : ∀ c ∈ parts, c.length = G.vcount) (h : champ2D env G parts γ₀ γf st = (some (.ok ranges) : Option _))
    (hs : s ∈ parts) (hone : ∀ x ∈ s, ∀ y ∈ s, x = y) {r : ℝ × ℝ × List α} (hr : r ∈ ranges) (hK : 2 ≤ r.2.2.dedup.length) :
    (r.2.2.dedup.length : ℝ) ≤ r.1 * G.ecount := by
  obtain ⟨-, h2, -, hmem, hiff⟩ := c17_ranges_correct he hG hp h r hr
  by_contra hno
  have := ((hiff r.1).mp ⟨le_rfl, h2.le⟩).2 s hs
  have := c127_one_best hG hdir hcon (hp _ hmem) (hp _ hs) hone hK (not_le.mp hno)
  linarith

section
variable {β : Type} [LinearOrder β] {ps : List (List β)} {penv : PruneEnv} {restrict : Option Nat} {out : List (List Nat)} {G' : Graph ℝ}
  {p : List β}

/-- **C127 (pruning).** If the partition into single vertices takes part, every other partition returned by
`prune_to_stable_partitions` has an estimate of at most `Γ`. -/
theorem c127_pruned (he : SoundPruneEnv penv) (hG : G.WF) (hp : ∀ p ∈ ps, p.length = G.vcount)
    (h : pruneToStable penv G (.memberships ps) γ₀ γf restrict st = (some (.ok (out, G')) : Option _))
    (hΓ : NoPairAbove G Γ) (hE : EveryPairExpected G) (hpc : Candidate ps restrict p) (hpn : p.Nodup) :
    ∀ o ∈ out, ¬ o.Nodup → ∃ γ, gammaEstimate penv.test G o = .ok (some (.fin γ), G') ∧ γ ≤ Γ := by
  intro o ho hon
  obtain ⟨⟨q, hq, hqo⟩, γ, hγ, -, -, hall⟩ := c38_sound he hG hp h o ho
  refine ⟨γ, hγ, ?_⟩
  by_contra hno
  have hb := hall p hpc
  rw [sortedTuple_eq] at hqo
  obtain rfl := Except.ok.inj hqo
  have hlt := c127_singletons_best hΓ hE (c := canon q) (s := canon p) (by rw [canon_length]; exact hp q hq.1)
    (by rw [canon_length]; exact hp p hpc.1) (nodup_of_same (canon_same p) hpn) hon (not_le.mp hno)
  rw [modularity_canon (hp p hpc.1)] at hlt
  linarith

/-- **C127 (pruning, number of communities).** On a connected undirected graph, if the partition into one community takes part, every
returned partition into `K ≥ 2` communities has an estimate of at least `K / m`. -/
theorem c127_pruned_communities (he : SoundPruneEnv penv) (hG : G.WF) (hdir : G.directed = false) (hcon : G.IsConnected)
    (hp : ∀ p ∈ ps, p.length = G.vcount)
    (h : pruneToStable penv G (.memberships ps) γ₀ γf restrict st = (some (.ok (out, G')) : Option _))
    (hpc : Candidate ps restrict p) (hone : ∀ x ∈ p, ∀ y ∈ p, x = y) :
    ∀ o ∈ out, 2 ≤ o.dedup.length → ∃ γ, gammaEstimate penv.test G o = .ok (some (.fin γ), G') ∧
      (o.dedup.length : ℝ) ≤ γ * G.ecount := by
  intro o ho hK
  obtain ⟨⟨q, hq, hqo⟩, γ, hγ, -, -, hall⟩ := c38_sound he hG hp h o ho
  refine ⟨γ, hγ, ?_⟩
  by_contra hno
  have hb := hall p hpc
  have hol : o.length = G.vcount := by
    rw [sortedTuple_eq] at hqo
    obtain rfl := Except.ok.inj hqo
    rw [canon_length]; exact hp q hq.1
  have hcn := canon_one hone
  have hlt := c127_one_best hG hdir hcon hol (by rw [canon_length]; exact hp p hpc.1) hcn hK (not_le.mp hno)
  rw [modularity_canon (hp p hpc.1)] at hlt
  linarith

end

/-! ### Multilayer networks -/

section
variable {Gi Gx : Graph ℝ} {layer : List Nat} {ω₀ ωf ω : ℝ} {doms : List (List (ℝ × ℝ) × List α)}

theorem cut_3D (hM : Multilayer Gi Gx layer) (hcon : (allEdges Gi Gx).IsConnected) (hc : c.length = Gi.vcount) (hs : s.length = Gi.vcount)
    (hone : ∀ x ∈ s, ∀ y ∈ s, x = y) (hγ : 0 ≤ γ) (hω : 0 ≤ ω) :
    min (if Gi.directed then 1 else 2) (ω * if Gx.directed then 1 else 2) * ((c.dedup.length : ℝ) - 1) - γ * total Gi ≤
      multilayerModularity Gi Gx layer γ ω s - multilayerModularity Gi Gx layer γ ω c := by
  have hWF : (allEdges Gi Gx).WF := by
    refine ⟨fun e he => ?_, by intro ws h; cases h⟩
    rcases List.mem_append.mp he with h | h
    · exact hM.intra.1 e h
    · have := hM.inter.1 e h; rw [hM.vcount] at this; exact this
  have hcut := c127_cut hWF hcon _ c hc rfl
  have hsplit : edgesWithin (allEdges Gi Gx) c = edgesWithin Gi c + edgesWithin Gx c := by
    unfold edgesWithin allEdges
    rw [List.filter_append, List.length_append]
  have hcount : (allEdges Gi Gx).ecount = Gi.ecount + Gx.ecount := List.length_append
  rw [hsplit, hcount] at hcut
  have hcut' : (edgesWithin Gi c : ℝ) + edgesWithin Gx c + c.dedup.length ≤ Gi.ecount + Gx.ecount + 1 := by exact_mod_cast hcut
  have hle1 : (edgesWithin Gi c : ℝ) ≤ Gi.ecount := by
    exact_mod_cast (List.length_filter_le _ _ : edgesWithin Gi c ≤ Gi.edges.length)
  have hle2 : (edgesWithin Gx c : ℝ) ≤ Gx.ecount := by
    exact_mod_cast (List.length_filter_le _ _ : edgesWithin Gx c ≤ Gx.edges.length)
  have hone' : ∀ H : Graph ℝ, H.WF → H.vcount = Gi.vcount → edgesWithin H s = H.ecount := by
    intro H hH hv
    unfold edgesWithin
    rw [List.filter_eq_self.2]
    · rfl
    · intro e he'
      have hw := hH.1 e he'
      rw [decide_eq_true_eq, List.getElem?_eq_getElem (by omega), List.getElem?_eq_getElem (by omega)]
      exact congrArg some (hone _ (List.getElem_mem _) _ (List.getElem_mem _))
  have hP := withinNullLayered_le_total layer hM.layers s
  have hP0 := withinNullLayered_nonneg Gi layer c
  unfold multilayerModularity
  rw [withinAdj_edgesWithin hM.intra hc, withinAdj_edgesWithin hM.intra hs,
    withinAdj_edgesWithin hM.inter (c := c) (by rw [hc, hM.vcount]), withinAdj_edgesWithin hM.inter (c := s) (by rw [hs, hM.vcount]),
    hone' Gi hM.intra rfl, hone' Gx hM.inter hM.vcount]
  have hf : (0 : ℝ) ≤ if Gi.directed then (1 : ℝ) else 2 := by split <;> norm_num
  have hg : (0 : ℝ) ≤ if Gx.directed then (1 : ℝ) else 2 := by split <;> norm_num
  generalize (if Gi.directed then (1 : ℝ) else 2) = f at *
  generalize (if Gx.directed then (1 : ℝ) else 2) = g at *
  have hμ : 0 ≤ min f (ω * g) := le_min hf (mul_nonneg hω hg)
  have h1 := mul_le_mul_of_nonneg_left (show (c.dedup.length : ℝ) - 1 ≤
    (Gi.ecount - edgesWithin Gi c) + (Gx.ecount - edgesWithin Gx c) by linarith) hμ
  have h2 := mul_le_mul_of_nonneg_right (min_le_left f (ω * g)) (show (0 : ℝ) ≤ Gi.ecount - edgesWithin Gi c by linarith)
  have h3 := mul_le_mul_of_nonneg_right (min_le_right f (ω * g)) (show (0 : ℝ) ≤ Gx.ecount - edgesWithin Gx c by linarith)
  have h4 := mul_le_mul_of_nonneg_left hP hγ
  have h5 := mul_nonneg hγ hP0
  linarith

/-- **C127 (multilayer).** If all edges together connect the vertices and the partition into one community was given, a domain of
`CHAMP_3D` containing `(γ, ω)` has a partition into `K` communities only if `K - 1` times the smaller of the weights of an intralayer and
an interlayer edge (`ω`; both twice if undirected) is at most `γ` times the total of the intralayer adjacency matrix. -/
theorem c127_domains (he : SoundEnv env) (hM : Multilayer Gi Gx layer) (hp : ∀ c ∈ parts, c.length = Gi.vcount)
    (h : champ3D env Gi Gx layer parts γ₀ γf ω₀ ωf = (some (.ok doms) : Option _)) (hcon : (allEdges Gi Gx).IsConnected)
    (hs : s ∈ parts) (hone : ∀ x ∈ s, ∀ y ∈ s, x = y) {d : List (ℝ × ℝ) × List α} (hd : d ∈ doms) (hγ : 0 ≤ γ) (hω : 0 ≤ ω)
    (hin : (γ, ω) ∈ convexHull ℝ {q | q ∈ d.1}) :
    min (if Gi.directed then 1 else 2) (ω * if Gx.directed then 1 else 2) * ((d.2.dedup.length : ℝ) - 1) ≤ γ * total Gi := by
  obtain ⟨hdp, -, hdi⟩ := c21_domains_correct he hM hp h d hd
  have a := ((hdi _).mp hin).2 _ hs
  have b := cut_3D (ω := ω) hM hcon (hp _ hdp) (hp _ hs) hone hγ hω
  simp only at a
  linarith

end

section
variable {Gi Gx : Graph ℝ} {layer : List Nat} {W : Window} {β : Type} [LinearOrder β] {ps : List (List β)} {penv : PruneEnv}
  {restrict : Option Nat} {out : List (List Nat)} {G' : Graph ℝ} {p : List β} {model : String}

/-- **C127 (multilayer pruning).** If the partition into one community takes part, a partition returned by
`prune_to_multilayer_stable_partitions` obeys the same bound at its own estimates (`ω` cut off at the window). -/
theorem c127_pruned_domains (he : SoundPruneEnv penv) (hM : Multilayer Gi Gx layer) (hp : ∀ p ∈ ps, p.length = Gi.vcount)
    (h : pruneToMultilayerStable penv Gi Gx layer model (.memberships ps) W.γ₀ W.γf W.ω₀ W.ωf restrict st =
      (some (.ok (out, G')) : Option _)) (hcon : (allEdges Gi Gx).IsConnected)
    (hpc : Candidate ps restrict p) (hone : ∀ x ∈ p, ∀ y ∈ p, x = y) (h0 : 0 ≤ W.γ₀) (hw0 : 0 ≤ W.ω₀) :
    ∀ o ∈ out, ∃ g ω, gammaOmegaEstimate penv.test penv.fsolve Gi Gx layer o defaultOmegaMax model = .ok ((some g, ω), G') ∧
      (g = .nan ∨ ∃ γ, g = .fin γ ∧
        min (if Gi.directed then 1 else 2) (min ω (W.ωf - 1 / 1000) * if Gx.directed then 1 else 2) * ((o.dedup.length : ℝ) - 1) ≤
          γ * total Gi) := by
  intro o ho
  obtain ⟨⟨q, hq, hqo⟩, g, ω, hg, hk⟩ := c43_sound he hM hp h o ho
  refine ⟨g, ω, hg, ?_⟩
  rcases hk with hn | ⟨γ, hγ, hin, hall⟩
  · exact Or.inl hn
  refine Or.inr ⟨γ, hγ, ?_⟩
  rw [sortedTuple_eq] at hqo
  obtain rfl := Except.ok.inj hqo
  obtain ⟨⟨⟨w1, -⟩, w2, -⟩, -⟩ := hin
  have hb := hall p hpc
  have a := cut_3D (γ := γ) (ω := min ω (W.ωf - 1 / 1000)) (c := canon q) (s := canon p) hM hcon
    (by rw [canon_length]; exact hp q hq.1) (by rw [canon_length]; exact hp p hpc.1) (canon_one hone) (by linarith) (by linarith)
  rw [multilayer_canon hM (hp p hpc.1)] at a
  linarith

end

/-! ### A concrete case -/

theorem gReal_noPairAbove : NoPairAbove gReal (10 / 3) := by
  have ht : total gReal = 10 := by decide +kernel
  intro i j hij hj
  have hj : j < 5 := hj
  rw [ht]
  have h : 30 * (adj gReal i j + adj gReal j i) ≤ 10 * (colSum gReal i * rowSum gReal j + colSum gReal j * rowSum gReal i) := by
    interval_cases j <;> interval_cases i <;> decide +kernel
  have h' : (30 : ℝ) * ((adj gReal i j : ℝ) + adj gReal j i) ≤
      10 * ((colSum gReal i : ℝ) * rowSum gReal j + (colSum gReal j : ℝ) * rowSum gReal i) := by exact_mod_cast h
  push_cast
  linarith

theorem gReal_everyPair : EveryPairExpected gReal := by
  intro i j hij hj
  have hj : j < 5 := hj
  interval_cases j <;> interval_cases i <;> decide +kernel

theorem gReal_connected : gReal.IsConnected := by
  have h0 : ∀ v < 5, Relation.ReflTransGen gReal.Step 0 v ∧ Relation.ReflTransGen gReal.Step v 0 := by
    have s : ∀ u v, ((u, v) ∈ gReal.edges ∨ (v, u) ∈ gReal.edges) → gReal.Step u v := fun u v h => by
      rcases h with h | h
      · exact Or.inl h
      · exact Or.inr ⟨rfl, h⟩
    have t : ∀ u v, ((u, v) ∈ gReal.edges ∨ (v, u) ∈ gReal.edges) → Relation.ReflTransGen gReal.Step u v :=
      fun u v h => Relation.ReflTransGen.single (s u v h)
    intro v hv
    interval_cases v
    · exact ⟨.refl, .refl⟩
    · exact ⟨t 0 1 (by decide), t 1 0 (by decide)⟩
    · exact ⟨(t 0 1 (by decide)).trans (t 1 2 (by decide)), (t 2 1 (by decide)).trans (t 1 0 (by decide))⟩
    · exact ⟨t 0 3 (by decide), t 3 0 (by decide)⟩
    · exact ⟨(t 0 3 (by decide)).trans (t 3 4 (by decide)), (t 4 3 (by decide)).trans (t 3 0 (by decide))⟩
  exact ⟨by decide, fun u hu v hv => (h0 u hu).2.trans (h0 v hv).1⟩

/-- a square with a pendant vertex: nothing but single vertices after 10/3, and no split before 2/5 -/
example : ∃ ranges, champ2D exactEnv gReal [[0, 0, 0, 0, 0], [0, 0, 0, 1, 1], [0, 1, 2, 3, 4]] 0 5 false =
      (some (.ok ranges) : Option _) ∧
    (∀ r ∈ ranges, r.2.2 ≠ [0, 1, 2, 3, 4] → r.2.1 ≤ 10 / 3) ∧
    ∀ r ∈ ranges, r.2.2 = [0, 0, 0, 1, 1] → 2 / 5 ≤ r.1 := by
  have hp : ∀ c ∈ ([[0, 0, 0, 0, 0], [0, 0, 0, 1, 1], [0, 1, 2, 3, 4]] : List (List Nat)), c.length = gReal.vcount := by decide
  obtain ⟨ranges, h⟩ := c17_returns (parts := [[0, 0, 0, 0, 0], [0, 0, 0, 1, 1], [0, 1, 2, 3, 4]]) (γ₀ := 0) (γf := 5)
    exactEnv_exact gReal_wf rfl (by decide) (by decide) (by decide) (by norm_num) false
  have he := exactEnv_exact.toSoundEnv
  refine ⟨ranges, h, fun r hr hne => ?_, fun r hr hc => ?_⟩
  · refine c127_champ he gReal_wf hp h gReal_noPairAbove gReal_everyPair (s := [0, 1, 2, 3, 4]) (by decide) (by decide) hr ?_
    obtain ⟨-, -, -, hmem, -⟩ := c17_ranges_correct he gReal_wf hp h r hr
    simp only [List.mem_cons, List.not_mem_nil, or_false] at hmem
    rcases hmem with e | e | e
    · rw [e]; decide
    · rw [e]; decide
    · exact absurd e hne
  · have := c127_communities he gReal_wf rfl gReal_connected hp h (s := [0, 0, 0, 0, 0]) (by decide) (by decide) hr
      (by rw [hc]; decide)
    rw [hc] at this
    have e1 : ([0, 0, 0, 1, 1] : List Nat).dedup.length = 2 := by decide
    have e2 : gReal.ecount = 5 := rfl
    rw [e1, e2] at this
    push_cast at this
    linarith

theorem gUnion_connected : (allEdges gIntraR gInterR).IsConnected := by
  have t : ∀ u v, ((u, v) ∈ (allEdges gIntraR gInterR).edges ∨ (v, u) ∈ (allEdges gIntraR gInterR).edges) →
      Relation.ReflTransGen (allEdges gIntraR gInterR).Step u v := fun u v h => by
    rcases h with h | h
    · exact .single (Or.inl h)
    · exact .single (Or.inr ⟨rfl, h⟩)
  have h0 : ∀ v < 6, Relation.ReflTransGen (allEdges gIntraR gInterR).Step 0 v ∧
      Relation.ReflTransGen (allEdges gIntraR gInterR).Step v 0 := by
    intro v hv
    interval_cases v
    · exact ⟨.refl, .refl⟩
    · exact ⟨t 0 1 (by decide), t 1 0 (by decide)⟩
    · exact ⟨(t 0 1 (by decide)).trans (t 1 2 (by decide)), (t 2 1 (by decide)).trans (t 1 0 (by decide))⟩
    · exact ⟨t 0 3 (by decide), t 3 0 (by decide)⟩
    · exact ⟨(t 0 1 (by decide)).trans (t 1 4 (by decide)), (t 4 1 (by decide)).trans (t 1 0 (by decide))⟩
    · exact ⟨((t 0 1 (by decide)).trans (t 1 2 (by decide))).trans (t 2 5 (by decide)),
        ((t 5 2 (by decide)).trans (t 2 1 (by decide))).trans (t 1 0 (by decide))⟩
  exact ⟨by decide, fun u hu v hv => (h0 u hu).2.trans (h0 v hv).1⟩

/-- two coupled paths: at `ω ≥ 1`, single vertices are optimal only from `5/8` on -/
example : ∃ doms, champ3D exactEnv gIntraR gInterR [0, 0, 0, 1, 1, 1] [[0, 0, 0, 0, 0, 0], [0, 1, 2, 3, 4, 5]] 0 20 0 2 =
      (some (.ok doms) : Option _) ∧
    ∀ d ∈ doms, d.2 = [0, 1, 2, 3, 4, 5] → ∀ γ ω, 0 ≤ γ → 1 ≤ ω → (γ, ω) ∈ convexHull ℝ {q | q ∈ d.1} → 5 / 8 ≤ γ := by
  have hp : ∀ c ∈ ([[0, 0, 0, 0, 0, 0], [0, 1, 2, 3, 4, 5]] : List (List Nat)), c.length = gIntraR.vcount := by decide
  obtain ⟨doms, h⟩ := c21_returns (parts := [[0, 0, 0, 0, 0, 0], [0, 1, 2, 3, 4, 5]]) (γ₀ := 0) (γf := 20) (ω₀ := 0) (ωf := 2)
    exactEnv_exact gIntraR_multilayer rfl (by decide) (by decide) hp (by decide) (by norm_num) (by norm_num)
  refine ⟨doms, h, fun d hd hc γ ω hγ hω hin => ?_⟩
  have := c127_domains exactEnv_exact.toSoundEnv gIntraR_multilayer hp h gUnion_connected (s := [0, 0, 0, 0, 0, 0]) (by decide)
    (by decide) hd hγ (by linarith) hin
  have e1 : ([0, 1, 2, 3, 4, 5] : List Nat).dedup.length = 6 := by decide
  have e2 : total gIntraR = 8 := by decide +kernel
  have e3 : gIntraR.directed = false := rfl
  have e4 : gInterR.directed = true := rfl
  rw [hc, e1, e2, e3, e4] at this
  simp only [Bool.false_eq_true, if_false, if_true, mul_one] at this
  have hmin : (1 : ℝ) ≤ min 2 ω := le_min (by norm_num) hω
  push_cast at this
  linarith

/-- two triangles joined by an edge -/
def gTriangles : Graph ℝ := ⟨6, false, [(0, 1), (1, 2), (2, 0), (3, 4), (4, 5), (5, 3), (2, 3)], none⟩

/-- The bound `K / m` is attained: the two triangles are as good as one community exactly at `2/7`, and better beyond. -/
theorem c127_communities_sharp :
    modularity gTriangles (2 / 7) [0, 0, 0, 1, 1, 1] = modularity gTriangles (2 / 7) [0, 0, 0, 0, 0, 0] ∧
    ∀ γ, 2 / 7 < γ → modularity gTriangles γ [0, 0, 0, 0, 0, 0] < modularity gTriangles γ [0, 0, 0, 1, 1, 1] := by
  have a1 : withinAdj gTriangles [0, 0, 0, 1, 1, 1] = 12 := by
    simp [withinAdj, gTriangles, adj, Finset.sum_range_succ]; norm_num
  have a2 : withinAdj gTriangles [0, 0, 0, 0, 0, 0] = 14 := by
    simp [withinAdj, gTriangles, adj, Finset.sum_range_succ]; norm_num
  have t : total gTriangles = 14 := by decide +kernel
  have n1 : (∑ i ∈ range gTriangles.vcount, ∑ j ∈ range gTriangles.vcount,
      if [0, 0, 0, 1, 1, 1][i]? = [0, 0, 0, 1, 1, 1][j]? then colSum gTriangles i * rowSum gTriangles j else 0) = 98 := by
    decide +kernel
  have n2 : (∑ i ∈ range gTriangles.vcount, ∑ j ∈ range gTriangles.vcount,
      if [0, 0, 0, 0, 0, 0][i]? = [0, 0, 0, 0, 0, 0][j]? then colSum gTriangles i * rowSum gTriangles j else 0) = 196 := by
    decide +kernel
  have p1 : withinNull gTriangles [0, 0, 0, 1, 1, 1] = 7 := by
    rw [withinNull_eq, n1, t]; norm_num
  have p2 : withinNull gTriangles [0, 0, 0, 0, 0, 0] = 14 := by
    rw [withinNull_eq, n2, t]; norm_num
  simp only [modularity_affine, a1, a2, p1, p2]
  exact ⟨by norm_num, fun γ h => by linarith⟩

/-- The bound `Γ` is attained: the two ends of a single edge are as good together as apart exactly at `Γ = 2`, and better before. -/
theorem c127_champ_sharp :
    NoPairAbove ⟨2, false, [(0, 1)], none⟩ 2 ∧
    ∀ γ, γ < 2 → modularity (⟨2, false, [(0, 1)], none⟩ : Graph ℝ) γ [0, 1] < modularity ⟨2, false, [(0, 1)], none⟩ γ [0, 0] := by
  refine ⟨fun i j hij hj => ?_, fun γ h => ?_⟩
  · have hj : j < 2 := hj
    obtain rfl : j = 1 := by omega
    obtain rfl : i = 0 := by omega
    simp [adj, rowSum, colSum, total, Finset.sum_range_succ]
  · have a1 : withinAdj (⟨2, false, [(0, 1)], none⟩ : Graph ℝ) [0, 1] = 0 := by
      simp [withinAdj, adj, Finset.sum_range_succ]
    have a2 : withinAdj (⟨2, false, [(0, 1)], none⟩ : Graph ℝ) [0, 0] = 2 := by
      simp [withinAdj, adj, Finset.sum_range_succ]; norm_num
    have p1 : withinNull (⟨2, false, [(0, 1)], none⟩ : Graph ℝ) [0, 1] = 1 := by
      simp [withinNull, adj, rowSum, colSum, total, Finset.sum_range_succ]; norm_num
    have p2 : withinNull (⟨2, false, [(0, 1)], none⟩ : Graph ℝ) [0, 0] = 2 := by
      simp [withinNull, adj, rowSum, colSum, total, Finset.sum_range_succ]; norm_num
    simp only [modularity_affine, a1, a2, p1, p2]
    linarith

end Verif.Props
