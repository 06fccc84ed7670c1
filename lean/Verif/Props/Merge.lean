import Verif.Spec.Merge
import Verif.Props.Tradeoff

/-!
# Property C119: at which resolutions two communities are kept apart
-/

namespace Verif.Props
open Verif Verif.Spec Finset

variable {α : Type} [DecidableEq α] {env : ChampEnv} {G : Graph ℝ} {parts : List (List α)} {γ₀ γf : ℝ} {st : Bool}
  {ranges : List (ℝ × ℝ × List α)} {c d : List α} {a b : α}

theorem edgesWithin_merged (hG : G.WF) (hc : c.length = G.vcount) (hm : MergedFrom d c a b) :
    edgesWithin G d = edgesWithin G c + edgesBetween G c a b := by
  obtain ⟨hab, -, hm⟩ := hm
  unfold edgesWithin edgesBetween
  have hE : ∀ e ∈ G.edges, e.1 < c.length ∧ e.2 < c.length := fun e he => by have := hG.1 e he; omega
  generalize G.edges = es at hE
  induction es with
  | nil => rfl
  | cons e es ih =>
    have ih := ih fun e he => hE e (List.mem_cons_of_mem _ he)
    obtain ⟨h1, h2⟩ := hE e List.mem_cons_self
    have hiff := hm e.1 e.2 h1 h2
    rw [List.filter_cons, List.filter_cons, List.filter_cons]
    by_cases hin : c[e.1]? = c[e.2]?
    · have hno : ¬ ((c[e.1]? = some a ∧ c[e.2]? = some b) ∨ (c[e.1]? = some b ∧ c[e.2]? = some a)) := by
        rintro (⟨ha, hb⟩ | ⟨ha, hb⟩)
        · exact hab (Option.some.inj (ha.symm.trans (hin.trans hb)))
        · exact hab (Option.some.inj (ha.symm.trans (hin.trans hb))).symm
      rw [if_pos (decide_eq_true (hiff.mpr (Or.inl hin))), if_pos (decide_eq_true hin), if_neg (by simpa using hno)]
      simp only [List.length_cons]
      omega
    · by_cases hbt : (c[e.1]? = some a ∧ c[e.2]? = some b) ∨ (c[e.1]? = some b ∧ c[e.2]? = some a)
      · rw [if_pos (decide_eq_true (hiff.mpr (Or.inr hbt))), if_neg (by simpa using hin), if_pos (decide_eq_true hbt)]
        simp only [List.length_cons]
        omega
      · have : ¬ d[e.1]? = d[e.2]? := fun h => (hiff.mp h).elim hin hbt
        rw [if_neg (by simpa using this), if_neg (by simpa using hin), if_neg (by simpa using hbt)]
        exact ih

/-- sums over pairs within communities, after merging -/
theorem pairs_merged {n : Nat} (hc : c.length = n) (hm : MergedFrom d c a b) (p : Nat → Nat → Prop) [∀ i j, Decidable (p i j)]
    (f : Nat → Nat → ℝ) :
    (∑ i ∈ range n, ∑ j ∈ range n, if d[i]? = d[j]? ∧ p i j then f i j else 0) =
      (∑ i ∈ range n, ∑ j ∈ range n, if c[i]? = c[j]? ∧ p i j then f i j else 0) +
      ∑ i ∈ range n, ∑ j ∈ range n,
        if ((c[i]? = some a ∧ c[j]? = some b) ∨ (c[i]? = some b ∧ c[j]? = some a)) ∧ p i j then f i j else 0 := by
  obtain ⟨hab, -, hm⟩ := hm
  rw [← Finset.sum_add_distrib]
  refine Finset.sum_congr rfl fun i hi => ?_
  rw [← Finset.sum_add_distrib]
  refine Finset.sum_congr rfl fun j hj => ?_
  rw [Finset.mem_range] at hi hj
  have hiff := hm i j (by omega) (by omega)
  by_cases hp : p i j
  · simp only [hp, and_true]
    by_cases hin : c[i]? = c[j]?
    · have hno : ¬ ((c[i]? = some a ∧ c[j]? = some b) ∨ (c[i]? = some b ∧ c[j]? = some a)) := by
        rintro (⟨ha, hb⟩ | ⟨ha, hb⟩)
        · exact hab (Option.some.inj (ha.symm.trans (hin.trans hb)))
        · exact hab (Option.some.inj (ha.symm.trans (hin.trans hb))).symm
      rw [if_pos (hiff.mpr (Or.inl hin)), if_pos hin, if_neg hno, add_zero]
    · by_cases hbt : (c[i]? = some a ∧ c[j]? = some b) ∨ (c[i]? = some b ∧ c[j]? = some a)
      · rw [if_pos (hiff.mpr (Or.inr hbt)), if_neg hin, if_pos hbt, zero_add]
      · rw [if_neg (fun h => (hiff.mp h).elim hin hbt), if_neg hin, if_neg hbt, add_zero]
  · simp [hp]

theorem withinNull_merged (hc : c.length = G.vcount) (hm : MergedFrom d c a b) :
    withinNull G d = withinNull G c + expectedBetween G c a b := by
  have h := pairs_merged hc hm (fun _ _ => True) fun i j => (colSum G i : ℝ) * (rowSum G j : ℝ) / (total G : ℝ)
  simp only [and_true] at h
  unfold withinNull
  rw [h]
  congr 1
  have hab := hm.1
  have hprod : ∀ x y : α, (∑ i ∈ range G.vcount, ∑ j ∈ range G.vcount,
      if c[i]? = some x ∧ c[j]? = some y then (colSum G i : ℝ) * (rowSum G j : ℝ) / (total G : ℝ) else 0) =
      (inDegreeOf G c x : ℝ) * outDegreeOf G c y / total G := by
    intro x y
    unfold inDegreeOf outDegreeOf
    push_cast
    rw [Finset.sum_mul_sum, Finset.sum_div]
    refine Finset.sum_congr rfl fun i _ => ?_
    rw [Finset.sum_div]
    refine Finset.sum_congr rfl fun j _ => ?_
    by_cases h1 : c[i]? = some x <;> by_cases h2 : c[j]? = some y <;> simp [h1, h2]
  unfold expectedBetween
  rw [add_div, ← hprod, ← hprod, ← Finset.sum_add_distrib]
  refine Finset.sum_congr rfl fun i _ => ?_
  rw [← Finset.sum_add_distrib]
  refine Finset.sum_congr rfl fun j _ => ?_
  by_cases h1 : c[i]? = some a ∧ c[j]? = some b
  · have h2 : ¬ (c[i]? = some b ∧ c[j]? = some a) := fun h => hab (Option.some.inj (h1.1.symm.trans h.1))
    rw [if_pos (Or.inl h1), if_pos h1, if_neg h2, add_zero]
  · by_cases h2 : c[i]? = some b ∧ c[j]? = some a
    · rw [if_pos (Or.inr h2), if_neg h1, if_pos h2, zero_add]
    · rw [if_neg (not_or.mpr ⟨h1, h2⟩), if_neg h1, if_neg h2, add_zero]

/-- **C119 (gain of a merge).** Joining two communities changes the modularity that `CHAMP_2D` compares by the number of edges between
them (twice, if undirected) less `γ` times the number expected. -/
theorem c119_gain (hG : G.WF) (hc : c.length = G.vcount) (hm : MergedFrom d c a b) (γ : ℝ) :
    modularity G γ d - modularity G γ c =
      (if G.directed then 1 else 2) * (edgesBetween G c a b : ℝ) - γ * expectedBetween G c a b := by
  have hd : d.length = G.vcount := hm.2.1.trans hc
  rw [modularity_affine, modularity_affine, withinAdj_edgesWithin hG hc, withinAdj_edgesWithin hG hd, edgesWithin_merged hG hc hm,
    withinNull_merged hc hm]
  push_cast
  ring

/-- **C119 (kept apart).** Where `CHAMP_2D` returns `c` although the partition with `a` and `b` joined was given as well, the edges
between `a` and `b` are at most `γ` times the number expected, for every `γ` of the range. -/
theorem c119_apart (he : SoundEnv env) (hG : G.WF) (hp : ∀ c ∈ parts, c.length = G.vcount)
    (h : champ2D env G parts γ₀ γf st = (some (.ok ranges) : Option _)) {r : ℝ × ℝ × List α} (hr : r ∈ ranges)
    (hd : d ∈ parts) (hm : MergedFrom d r.2.2 a b) {γ : ℝ} (hγ : r.1 ≤ γ ∧ γ ≤ r.2.1) :
    (if G.directed then 1 else 2) * (edgesBetween G r.2.2 a b : ℝ) ≤ γ * expectedBetween G r.2.2 a b := by
  obtain ⟨-, -, -, hmem, hiff⟩ := c17_ranges_correct he hG hp h r hr
  have h1 := ((hiff γ).mp hγ).2 d hd
  have h2 := c119_gain hG (hp _ hmem) hm γ
  linarith

/-- **C119 (joined).** Where `CHAMP_2D` returns a partition although the partition `c` with one of its communities split into `a` and `b`
was given as well, the edges between the two parts are at least `γ` times the number expected. -/
theorem c119_joined (he : SoundEnv env) (hG : G.WF) (hp : ∀ c ∈ parts, c.length = G.vcount)
    (h : champ2D env G parts γ₀ γf st = (some (.ok ranges) : Option _)) {r : ℝ × ℝ × List α} (hr : r ∈ ranges)
    (hc : c ∈ parts) (hm : MergedFrom r.2.2 c a b) {γ : ℝ} (hγ : r.1 ≤ γ ∧ γ ≤ r.2.1) :
    γ * expectedBetween G c a b ≤ (if G.directed then 1 else 2) * (edgesBetween G c a b : ℝ) := by
  obtain ⟨-, -, -, hmem, hiff⟩ := c17_ranges_correct he hG hp h r hr
  have h1 := ((hiff γ).mp hγ).2 c hc
  have h2 := c119_gain hG (hp _ hc) hm γ
  linarith

theorem colSum_eq_rowSum (hd : G.directed = false) (i : Nat) : colSum G i = rowSum G i := by
  unfold colSum rowSum adj
  simp only [hd, Bool.false_eq_true, if_false]
  exact Finset.sum_congr rfl fun j _ => Nat.add_comm _ _

theorem expected_undirected (hd : G.directed = false) :
    expectedBetween G c a b = 2 * ((outDegreeOf G c a : ℝ) * outDegreeOf G c b) / total G := by
  have : ∀ x : α, inDegreeOf G c x = outDegreeOf G c x := by
    intro x
    unfold inDegreeOf outDegreeOf
    exact Finset.sum_congr rfl fun i _ => by rw [colSum_eq_rowSum hd]
  unfold expectedBetween
  rw [this, this]
  ring

/-- **C119 (the resolution limit).** On an undirected graph two communities with `e` edges between them and sums of degrees `k`, `l` are
separated above and joined below the resolution `2m e / (k l)`: the range of a partition starts there or later, if the partition with
the two joined was given, and the range of the joined partition ends there or earlier, if the partition with the two apart was given. -/
theorem c119_resolution_limit (he : SoundEnv env) (hG : G.WF) (hdir : G.directed = false) (hp : ∀ c ∈ parts, c.length = G.vcount)
    (h : champ2D env G parts γ₀ γf st = (some (.ok ranges) : Option _)) (hc : c ∈ parts) (hd : d ∈ parts) (hm : MergedFrom d c a b)
    (hk : 0 < outDegreeOf G c a) (hl : 0 < outDegreeOf G c b) :
    (∀ r ∈ ranges, r.2.2 = c → total G * (edgesBetween G c a b : ℝ) / ((outDegreeOf G c a : ℝ) * outDegreeOf G c b) ≤ r.1) ∧
    ∀ r ∈ ranges, r.2.2 = d → r.2.1 ≤ total G * (edgesBetween G c a b : ℝ) / ((outDegreeOf G c a : ℝ) * outDegreeOf G c b) := by
  have hkl : (0 : ℝ) < (outDegreeOf G c a : ℝ) * outDegreeOf G c b := by positivity
  have hT : (0 : ℝ) < total G := by
    have : 0 < total G := by
      unfold outDegreeOf at hk
      obtain ⟨i, hi, hpos⟩ : ∃ i ∈ range G.vcount, 0 < rowSum G i := by
        by_contra hno
        push Not at hno
        rw [Finset.sum_eq_zero] at hk
        · exact absurd hk (lt_irrefl _)
        · intro i hi
          have := hno i hi
          split <;> omega
      exact lt_of_lt_of_le hpos (Finset.single_le_sum (f := fun i => rowSum G i) (fun i _ => Nat.zero_le _) hi)
    exact_mod_cast this
  constructor
  · rintro r hr rfl
    have hlt := (c17_ranges_correct he hG hp h r hr).2.1
    have h1 := c119_apart he hG hp h hr hd hm ⟨le_rfl, hlt.le⟩
    rw [expected_undirected hdir, hdir] at h1
    rw [div_le_iff₀ hkl]
    simp only [Bool.false_eq_true, if_false] at h1
    rw [← mul_div_assoc, le_div_iff₀ hT] at h1
    linarith
  · rintro r hr rfl
    have hlt := (c17_ranges_correct he hG hp h r hr).2.1
    have h1 := c119_joined he hG hp h hr hc hm ⟨hlt.le, le_rfl⟩
    rw [expected_undirected hdir, hdir] at h1
    rw [le_div_iff₀ hkl]
    simp only [Bool.false_eq_true, if_false] at h1
    rw [← mul_div_assoc, div_le_iff₀ hT] at h1
    linarith

/-- **C119 (nothing pieced together).** On a window without negative resolutions no partition returned by `CHAMP_2D` has a community that
falls into two parts with edges at both, but none between them, if the partition with the two apart was given as well. -/
theorem c119_connected (he : SoundEnv env) (hG : G.WF) (hp : ∀ c ∈ parts, c.length = G.vcount) (h0 : 0 ≤ γ₀)
    (h : champ2D env G parts γ₀ γf st = (some (.ok ranges) : Option _)) (hc : c ∈ parts) (hm : MergedFrom d c a b)
    (hnone : edgesBetween G c a b = 0) (hex : 0 < expectedBetween G c a b) : ∀ r ∈ ranges, r.2.2 ≠ d := by
  rintro r hr rfl
  obtain ⟨h1, h2, -⟩ := c17_ranges_correct he hG hp h r hr
  have := c119_joined he hG hp h hr hc hm ⟨h2.le, le_rfl⟩
  rw [hnone] at this
  have hpos : 0 < r.2.1 * expectedBetween G c a b := mul_pos (by linarith) hex
  simp only [Nat.cast_zero, mul_zero] at this
  linarith

section
variable {β : Type} [LinearOrder β] {ps : List (List β)} {env : PruneEnv} {restrict : Option Nat} {out : List (List Nat)} {G' : Graph ℝ}
  {p q : List β} {x y : β} {o : List Nat}

/-- **C119 (pruning).** A partition returned by `prune_to_stable_partitions` keeps two communities apart only if, at its own estimate,
the edges between them are at most the number expected – provided the partition with the two joined takes part –, and joins two only if
they are at least that. -/
theorem c119_pruned (he : SoundPruneEnv env) (hG : G.WF) (hp : ∀ p ∈ ps, p.length = G.vcount)
    (h : pruneToStable env G (.memberships ps) γ₀ γf restrict st = (some (.ok (out, G')) : Option _))
    (hpc : Candidate ps restrict p) (hqc : Candidate ps restrict q) (hm : MergedFrom q p x y) :
    (∀ o ∈ out, sortedTuple p = .ok o → ∃ γ, gammaEstimate env.test G o = .ok (some (.fin γ), G') ∧
      (if G.directed then 1 else 2) * (edgesBetween G p x y : ℝ) ≤ γ * expectedBetween G p x y) ∧
    (∀ o ∈ out, sortedTuple q = .ok o → ∃ γ, gammaEstimate env.test G o = .ok (some (.fin γ), G') ∧
      γ * expectedBetween G p x y ≤ (if G.directed then 1 else 2) * (edgesBetween G p x y : ℝ)) ∧
    (0 ≤ γ₀ → edgesBetween G p x y = 0 → 0 < expectedBetween G p x y → ∀ o ∈ out, sortedTuple q ≠ .ok o) := by
  obtain ⟨cs, ⟨hnd, hcs⟩, ranges, hch, hest, hsub, hout⟩ := pruneToStable_facts he h
  have hlen : ∀ c ∈ cs, c.length = G.vcount := by
    intro c hc
    obtain ⟨p, hpc, rfl⟩ := (hcs c).mp hc
    rw [canon_length]; exact hp p hpc.1
  have hpm : canon p ∈ cs := (hcs _).mpr ⟨p, hpc, rfl⟩
  have hqm : canon q ∈ cs := (hcs _).mpr ⟨q, hqc, rfl⟩
  have hgain := fun γ => c119_gain hG (hp p hpc.1) hm γ
  refine ⟨?_, ?_, ?_⟩
  · intro o ho hs
    rw [sortedTuple_eq] at hs
    obtain rfl := Except.ok.inj hs
    obtain ⟨r, hr, hrp, γ, h1, h2, hγ⟩ := (hout _).mp ho
    refine ⟨γ, hγ, ?_⟩
    have hopt := (((c17_ranges_correct he.toSoundEnv hG hlen hch r hr).2.2.2.2 γ).mp ⟨h1, h2⟩).2 _ hqm
    rw [hrp, modularity_canon (hp p hpc.1), modularity_canon (hp q hqc.1)] at hopt
    have := hgain γ
    linarith
  · intro o ho hs
    rw [sortedTuple_eq] at hs
    obtain rfl := Except.ok.inj hs
    obtain ⟨r, hr, hrp, γ, h1, h2, hγ⟩ := (hout _).mp ho
    refine ⟨γ, hγ, ?_⟩
    have hopt := (((c17_ranges_correct he.toSoundEnv hG hlen hch r hr).2.2.2.2 γ).mp ⟨h1, h2⟩).2 _ hpm
    rw [hrp, modularity_canon (hp p hpc.1), modularity_canon (hp q hqc.1)] at hopt
    have := hgain γ
    linarith
  · intro h0 hnone hex o ho hs
    rw [sortedTuple_eq] at hs
    obtain rfl := Except.ok.inj hs
    obtain ⟨r, hr, hrp, -⟩ := (hout _).mp ho
    obtain ⟨h1, h2, -, -, hiff⟩ := c17_ranges_correct he.toSoundEnv hG hlen hch r hr
    have hopt := ((hiff r.2.1).mp ⟨h2.le, le_rfl⟩).2 _ hpm
    rw [hrp, modularity_canon (hp p hpc.1), modularity_canon (hp q hqc.1)] at hopt
    have := hgain r.2.1
    rw [hnone] at this
    have hpos : 0 < r.2.1 * expectedBetween G p x y := mul_pos (by linarith) hex
    simp only [Nat.cast_zero, mul_zero] at this
    linarith

end

section
variable {Gi Gx : Graph ℝ} {layer : List Nat} {ω₀ ωf : ℝ} {doms : List (List (ℝ × ℝ) × List α)}

/-- **C119 (gain of a merge, multilayer).** -/
theorem c119_gain_3D (hM : Multilayer Gi Gx layer) (hc : c.length = Gi.vcount) (hm : MergedFrom d c a b) (γ ω : ℝ) :
    multilayerModularity Gi Gx layer γ ω d - multilayerModularity Gi Gx layer γ ω c =
      (if Gi.directed then 1 else 2) * (edgesBetween Gi c a b : ℝ) + ω * ((if Gx.directed then 1 else 2) * (edgesBetween Gx c a b : ℝ)) -
        γ * expectedBetweenLayered Gi layer c a b := by
  have hd : d.length = Gi.vcount := hm.2.1.trans hc
  have hcx : c.length = Gx.vcount := by rw [hc, hM.vcount]
  have hdx : d.length = Gx.vcount := by rw [hd, hM.vcount]
  have hP : withinNullLayered Gi layer d = withinNullLayered Gi layer c + expectedBetweenLayered Gi layer c a b :=
    pairs_merged hc hm (fun i j => layer[i]? = layer[j]?) fun i j =>
      (colSum Gi i : ℝ) * (rowSum Gi j : ℝ) / (layerTotal Gi layer (layer[i]?.getD 0) : ℝ)
  unfold multilayerModularity
  rw [hP, withinAdj_edgesWithin hM.intra hc, withinAdj_edgesWithin hM.intra hd, withinAdj_edgesWithin hM.inter hcx,
    withinAdj_edgesWithin hM.inter hdx, edgesWithin_merged hM.intra hc hm, edgesWithin_merged hM.inter hcx hm]
  push_cast
  ring

/-- **C119 (multilayer domains).** At every point of a domain of `CHAMP_3D`: two communities are kept apart only if their intralayer edges
and `ω` times their interlayer edges are together at most `γ` times the number expected, and joined only if they are at least that
(provided the partition with the two joined, or apart, was given).  A community that falls into two parts without any edge between them
does not occur, if edges are expected between them, the partition with the two apart was given and the window has no negative
resolutions. -/
theorem c119_domains (he : SoundEnv env) (hM : Multilayer Gi Gx layer) (hp : ∀ c ∈ parts, c.length = Gi.vcount)
    (h : champ3D env Gi Gx layer parts γ₀ γf ω₀ ωf = (some (.ok doms) : Option _)) (hc : c ∈ parts) (hd : d ∈ parts)
    (hm : MergedFrom d c a b) :
    (∀ D ∈ doms, D.2 = c → ∀ γ ω, (γ, ω) ∈ convexHull ℝ {q | q ∈ D.1} →
      (if Gi.directed then 1 else 2) * (edgesBetween Gi c a b : ℝ) + ω * ((if Gx.directed then 1 else 2) * (edgesBetween Gx c a b : ℝ)) ≤
        γ * expectedBetweenLayered Gi layer c a b) ∧
    (∀ D ∈ doms, D.2 = d → ∀ γ ω, (γ, ω) ∈ convexHull ℝ {q | q ∈ D.1} → γ * expectedBetweenLayered Gi layer c a b ≤
      (if Gi.directed then 1 else 2) * (edgesBetween Gi c a b : ℝ) + ω * ((if Gx.directed then 1 else 2) * (edgesBetween Gx c a b : ℝ))) ∧
    (0 ≤ γ₀ → edgesBetween Gi c a b = 0 → edgesBetween Gx c a b = 0 → 0 < expectedBetweenLayered Gi layer c a b →
      ∀ D ∈ doms, D.2 ≠ d) := by
  have hcor := c21_domains_correct he hM hp h
  obtain ⟨-, -, -, hint⟩ := c22_domains_disjoint he hM hp h
  have hjoin : ∀ D ∈ doms, D.2 = d → ∀ γ ω, (γ, ω) ∈ convexHull ℝ {q | q ∈ D.1} → γ * expectedBetweenLayered Gi layer c a b ≤
      (if Gi.directed then 1 else 2) * (edgesBetween Gi c a b : ℝ) + ω * ((if Gx.directed then 1 else 2) * (edgesBetween Gx c a b : ℝ)) := by
    rintro D hD rfl γ ω hq
    have h1 := (((hcor D hD).2.2 (γ, ω)).mp hq).2 c hc
    have h2 := c119_gain_3D hM (hp _ hc) hm γ ω
    dsimp only at h1
    linarith
  refine ⟨?_, hjoin, ?_⟩
  · rintro D hD rfl γ ω hq
    have h1 := (((hcor D hD).2.2 (γ, ω)).mp hq).2 d hd
    have h2 := c119_gain_3D hM (hp _ hc) hm γ ω
    dsimp only at h1
    linarith
  · intro h0 hi hx hex D hD hDd
    obtain ⟨q, hq⟩ := hint D hD
    have hiff := (hcor D hD).2.2
    have hsub : convexHull ℝ {q | q ∈ D.1} ⊆ Set.Ici (0 : ℝ) ×ˢ (Set.univ : Set ℝ) := by
      intro p hp
      exact ⟨h0.trans ((hiff p).mp hp).1.1.1, trivial⟩
    have hpos := interior_mono hsub hq
    rw [interior_prod_eq, interior_Ici] at hpos
    have hq0 : 0 < q.1 := hpos.1
    have h1 := hjoin D hD hDd q.1 q.2 (interior_subset hq)
    rw [hi, hx] at h1
    have := mul_pos hq0 hex
    simp only [Nat.cast_zero, mul_zero, add_zero] at h1
    linarith

/-- **C119 (multilayer pruning).** `prune_to_multilayer_stable_partitions` returns no partition with a community that falls into two parts
without any edge between them, if edges are expected between them, the partition with the two apart takes part and the window has no
negative resolutions. -/
theorem c119_pruned_3D {β : Type} [LinearOrder β] {ps : List (List β)} {env : PruneEnv} {model : String} {restrict : Option Nat}
    {out : List (List Nat)} {G' : Graph ℝ} {p q : List β} {x y : β} (he : SoundPruneEnv env) (hM : Multilayer Gi Gx layer)
    (hp : ∀ p ∈ ps, p.length = Gi.vcount) (h0 : 0 ≤ γ₀)
    (h : pruneToMultilayerStable env Gi Gx layer model (.memberships ps) γ₀ γf ω₀ ωf restrict st = (some (.ok (out, G')) : Option _))
    (hpc : Candidate ps restrict p) (hm : MergedFrom q p x y)
    (hi : edgesBetween Gi p x y = 0) (hx : edgesBetween Gx p x y = 0) (hex : 0 < expectedBetweenLayered Gi layer p x y) :
    ∀ o ∈ out, sortedTuple q ≠ .ok o := by
  intro o ho hs
  rw [sortedTuple_eq] at hs
  obtain rfl := Except.ok.inj hs
  obtain ⟨cs, ⟨hnd, hcs⟩, doms, hch, hest, hsub, hout⟩ := pruneToMultilayerStable_facts he hM hp h
  have hlen : ∀ c ∈ cs, c.length = Gi.vcount := by
    intro c hc
    obtain ⟨p, hpc, rfl⟩ := (hcs c).mp hc
    rw [canon_length]; exact hp p hpc.1
  have hq : q.length = Gi.vcount := hm.2.1.trans (hp p hpc.1)
  obtain ⟨D, hD, hDq, -⟩ := (hout _).mp ho
  obtain ⟨-, -, -, hint⟩ := c22_domains_disjoint he.toSoundEnv hM hlen hch
  obtain ⟨z, hz⟩ := hint D hD
  have hiff := (c21_domains_correct he.toSoundEnv hM hlen hch D hD).2.2
  have hsub : convexHull ℝ {q | q ∈ D.1} ⊆ Set.Ici (0 : ℝ) ×ˢ (Set.univ : Set ℝ) := by
    intro p hp
    exact ⟨h0.trans ((hiff p).mp hp).1.1.1, trivial⟩
  have hpos := interior_mono hsub hz
  rw [interior_prod_eq, interior_Ici] at hpos
  have hz0 : 0 < z.1 := hpos.1
  have h1 := ((hiff z).mp (interior_subset hz)).2 _ ((hcs _).mpr ⟨p, hpc, rfl⟩)
  rw [hDq, multilayer_canon hM (hp p hpc.1), multilayer_canon hM hq] at h1
  have h2 := c119_gain_3D hM (hp p hpc.1) hm z.1 z.2
  rw [hi, hx] at h2
  have := mul_pos hz0 hex
  simp only [Nat.cast_zero, mul_zero, add_zero] at h2
  linarith

end

-- joining `{0, 1}` and `{2}` in the square with a pendant edge: one edge between them, 5/2 expected (in both directions)
example : MergedFrom [0, 0, 0, 1, 1] [0, 0, 1, 2, 2] 0 1 ∧ edgesBetween gReal [0, 0, 1, 2, 2] 0 1 = 1 ∧
    outDegreeOf gReal [0, 0, 1, 2, 2] 0 = 4 ∧ outDegreeOf gReal [0, 0, 1, 2, 2] 1 = 2 ∧ total gReal = 10 := by
  refine ⟨⟨by decide, rfl, ?_⟩, by decide +kernel, by decide +kernel, by decide +kernel, by decide +kernel⟩
  intro i j hi hj
  have hi : i < 5 := hi
  have hj : j < 5 := hj
  interval_cases i <;> interval_cases j <;> decide

-- hence the range of the finer partition starts at 5/4 or later, and that of the coarser ends there or earlier
example : ∃ ranges, champ2D exactEnv gReal [[0, 0, 0, 1, 1], [0, 0, 1, 2, 2]] 0 2 false = (some (.ok ranges) : Option _) ∧
    (∀ r ∈ ranges, r.2.2 = [0, 0, 1, 2, 2] → 5 / 4 ≤ r.1) ∧ ∀ r ∈ ranges, r.2.2 = [0, 0, 0, 1, 1] → r.2.1 ≤ 5 / 4 := by
  obtain ⟨ranges, h⟩ := c17_returns (parts := [[0, 0, 0, 1, 1], [0, 0, 1, 2, 2]]) (γ₀ := 0) (γf := 2) exactEnv_exact
    gReal_wf rfl (by decide) (by decide) (by decide) (by norm_num) false
  have hm : MergedFrom [0, 0, 0, 1, 1] [0, 0, 1, 2, 2] 0 1 := by
    refine ⟨by decide, rfl, ?_⟩
    intro i j hi hj
    have hi : i < 5 := hi
    have hj : j < 5 := hj
    interval_cases i <;> interval_cases j <;> decide
  have hk : outDegreeOf gReal [0, 0, 1, 2, 2] 0 = 4 := by decide +kernel
  have hl : outDegreeOf gReal [0, 0, 1, 2, 2] 1 = 2 := by decide +kernel
  have ht : total gReal = 10 := by decide +kernel
  have hb : edgesBetween gReal [0, 0, 1, 2, 2] 0 1 = 1 := by decide +kernel
  have := c119_resolution_limit exactEnv_exact.toSoundEnv gReal_wf rfl (by decide) h (c := [0, 0, 1, 2, 2]) (d := [0, 0, 0, 1, 1])
    (by decide) (by decide) hm (by rw [hk]; norm_num) (by rw [hl]; norm_num)
  rw [hk, hl, ht, hb] at this
  norm_num at this
  exact ⟨ranges, h, fun r hr hc => this.1 _ _ _ hr hc, fun r hr hc => this.2 _ _ _ hr hc⟩

-- `{0, 1}` and `{4}` in the same graph: no edge between them, but some expected
example : edgesBetween gReal [0, 0, 1, 1, 2] 0 2 = 0 ∧ expectedBetween gReal [0, 0, 1, 1, 2] 0 2 = 4 / 5 := by
  refine ⟨by decide +kernel, ?_⟩
  rw [expected_undirected rfl]
  have hk : outDegreeOf gReal [0, 0, 1, 1, 2] 0 = 4 := by decide +kernel
  have hl : outDegreeOf gReal [0, 0, 1, 1, 2] 2 = 1 := by decide +kernel
  have ht : total gReal = 10 := by decide +kernel
  rw [hk, hl, ht]
  norm_num

end Verif.Props
