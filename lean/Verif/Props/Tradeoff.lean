import Verif.Spec.Tradeoff
import Verif.Props.Prune
import Verif.Props.Prune3D
import Verif.Props.ReturnsIff

/-!
# Property C118: the trade-off along the ranges, and how many domains there can be
-/

namespace Verif.Props
open Verif Verif.Spec

variable {α : Type} [DecidableEq α] {env : ChampEnv} {G : Graph ℝ} {parts : List (List α)} {γ₀ γf : ℝ} {st : Bool}
  {ranges : List (ℝ × ℝ × List α)}

theorem withinAdj_edgesWithin (hG : G.WF) {c : List α} (hc : c.length = G.vcount) :
    withinAdj G c = (if G.directed then 1 else 2) * (edgesWithin G c : ℝ) := by
  obtain ⟨a, h1, h2⟩ := adjacencyCoefficient_ok (F := ℝ) hG hc
  rw [← h2]
  unfold adjacencyCoefficient at h1
  rw [internalEdgeCount_ok (fun e he => by have := hG.1 e he; omega)] at h1
  have hcount : insideCount G.edges c = edgesWithin G c := by
    unfold insideCount edgesWithin
    rw [List.countP_eq_length_filter]
  cases hd : G.directed <;> simp only [hd, Py.ok_bind, Py.pure_eq] at h1 <;> injection h1 with h1 <;> rw [← h1, hcount] <;> simp

theorem edgesWithin_le (G : Graph ℝ) (c : List α) : edgesWithin G c ≤ G.ecount := List.length_filter_le _ _

theorem edgesWithin_lt (hG : G.WF) {c d : List α} (hc : c.length = G.vcount) (hd : d.length = G.vcount)
    (h : withinAdj G c < withinAdj G d) : edgesWithin G c < edgesWithin G d := by
  rw [withinAdj_edgesWithin hG hc, withinAdj_edgesWithin hG hd] at h
  have : (edgesWithin G c : ℝ) < edgesWithin G d := by
    split at h <;> linarith
  exact_mod_cast this

/-- the two sums along the ranges -/
theorem ranges_sums (he : SoundEnv env) (hG : G.WF) (hp : ∀ c ∈ parts, c.length = G.vcount)
    (h : champ2D env G parts γ₀ γf st = (some (.ok ranges) : Option _)) :
    ranges.Pairwise fun r s => withinNull G s.2.2 < withinNull G r.2.2 ∧ (0 ≤ γ₀ → withinAdj G s.2.2 < withinAdj G r.2.2) ∧
      (r.2.1 = s.1 → modularity G r.2.1 r.2.2 = modularity G r.2.1 s.2.2) := by
  by_cases hne : parts = []
  · subst hne
    have : champ2D env G ([] : List (List α)) γ₀ γf st = (some (.ok []) : Option _) := rfl
    rw [this] at h
    cases h
    exact List.Pairwise.nil
  obtain ⟨-, -, -, hpw⟩ := c19_sorted_tiling he hG hp hne h
  have hdist := (c20_no_duplicates he hG hp h).2
  refine List.Pairwise.imp_of_mem ?_ (hpw.and hdist)
  rintro r s hr hs ⟨hrs, hne⟩
  obtain ⟨hr0, hrlt, -, hrm, hriff⟩ := c17_ranges_correct he hG hp h r hr
  obtain ⟨hs0, hslt, -, hsm, hsiff⟩ := c17_ranges_correct he hG hp h s hs
  -- the middles of the ranges
  have hx := c20_returned_strictly_optimal he hG hp h r hr ((r.1 + r.2.1) / 2) (by linarith) (by linarith) s.2.2 hsm
    (by obtain ⟨γ, hγ⟩ := hne; exact ⟨γ, hγ.symm⟩)
  have hy := c20_returned_strictly_optimal he hG hp h s hs ((s.1 + s.2.1) / 2) (by linarith) (by linarith) r.2.2 hrm hne
  have hsr : r.1 < s.1 := hrs
  -- `s` is not yet optimal in the middle of `r`
  have hxy : (r.1 + r.2.1) / 2 < (s.1 + s.2.1) / 2 := by
    by_contra hge
    push Not at hge
    -- the middle of `r` lies right of the middle of `s`, hence in the range of `s` or beyond `s.1`; compare at the point `max`
    have h1 := ((hsiff s.1).mp ⟨le_rfl, hslt.le⟩).2 r.2.2 hrm
    have h2 := ((hriff r.1).mp ⟨le_rfl, hrlt.le⟩).2 s.2.2 hsm
    have h3 := ((hriff r.2.1).mp ⟨hrlt.le, le_rfl⟩).2 s.2.2 hsm
    have hy' := hy
    simp only [modularity_affine] at h1 h2 h3 hy' hx
    -- the middle of `s` is between `r.1` and `r.2.1`
    have hin : r.1 ≤ (s.1 + s.2.1) / 2 ∧ (s.1 + s.2.1) / 2 ≤ r.2.1 := ⟨by linarith, by linarith⟩
    have := ((hriff _).mp hin).2 s.2.2 hsm
    linarith
  simp only [modularity_affine] at hx hy
  have hP : withinNull G s.2.2 < withinNull G r.2.2 := by nlinarith
  refine ⟨hP, fun h0 => ?_, fun hb => ?_⟩
  · have : 0 ≤ (r.1 + r.2.1) / 2 := by linarith
    nlinarith
  · refine le_antisymm ?_ ?_
    · exact ((hsiff r.2.1).mp ⟨hb ▸ le_rfl, by rw [hb]; exact hslt.le⟩).2 _ hrm
    · exact ((hriff r.2.1).mp ⟨hrlt.le, le_rfl⟩).2 _ hsm

/-- **C118 (trade-off).** Along the ranges returned by `CHAMP_2D`, from low to high resolution, the null-model sum strictly decreases,
and, on a window without negative resolutions, so does the number of edges within communities. -/
theorem c118_tradeoff (he : SoundEnv env) (hG : G.WF) (hp : ∀ c ∈ parts, c.length = G.vcount)
    (h : champ2D env G parts γ₀ γf st = (some (.ok ranges) : Option _)) :
    (ranges.Pairwise fun r s => withinNull G s.2.2 < withinNull G r.2.2) ∧
    (0 ≤ γ₀ → ranges.Pairwise fun r s => edgesWithin G s.2.2 < edgesWithin G r.2.2) := by
  have hs := ranges_sums he hG hp h
  have hin : ∀ r ∈ ranges, r.2.2.length = G.vcount := fun r hr => hp _ (c17_ranges_correct he hG hp h r hr).2.2.2.1
  refine ⟨hs.imp fun h => h.1, fun h0 => ?_⟩
  refine List.Pairwise.imp_of_mem ?_ hs
  intro r s hr hs h
  exact edgesWithin_lt hG (hin s hs) (hin r hr) (h.2.1 h0)

/-- **C118 (how many).** On a window without negative resolutions `CHAMP_2D` returns at most one range more than the graph has edges,
however many partitions it was given. -/
theorem c118_count (he : SoundEnv env) (hG : G.WF) (hp : ∀ c ∈ parts, c.length = G.vcount) (h0 : 0 ≤ γ₀)
    (h : champ2D env G parts γ₀ γf st = (some (.ok ranges) : Option _)) : ranges.length ≤ G.ecount + 1 := by
  have hpw := (c118_tradeoff he hG hp h).2 h0
  have hnd : (ranges.map fun r => edgesWithin G r.2.2).Nodup := by
    rw [List.nodup_iff_pairwise_ne, List.pairwise_map]
    exact hpw.imp fun h => (Nat.ne_of_lt h).symm
  have hsub : (ranges.map fun r => edgesWithin G r.2.2) ⊆ List.range (G.ecount + 1) := by
    intro n hn
    obtain ⟨r, -, rfl⟩ := List.mem_map.1 hn
    exact List.mem_range.2 (Nat.lt_succ_of_le (edgesWithin_le G r.2.2))
  simpa using (List.subperm_of_subset hnd hsub).length_le

/-- **C118 (where the ranges meet).** At the boundary between two successive ranges the two partitions have the same modularity: it is the
quotient of the differences of their sums. -/
theorem c118_crossing (he : SoundEnv env) (hG : G.WF) (hp : ∀ c ∈ parts, c.length = G.vcount)
    (h : champ2D env G parts γ₀ γf st = (some (.ok ranges) : Option _)) {i : Nat} {r s : ℝ × ℝ × List α}
    (hr : ranges[i]? = some r) (hs : ranges[i + 1]? = some s) :
    r.2.1 = s.1 ∧ modularity G r.2.1 r.2.2 = modularity G r.2.1 s.2.2 ∧
    r.2.1 = (withinAdj G r.2.2 - withinAdj G s.2.2) / (withinNull G r.2.2 - withinNull G s.2.2) := by
  have hne : parts ≠ [] := by
    rintro rfl
    have : champ2D env G ([] : List (List α)) γ₀ γf st = (some (.ok []) : Option _) := rfl
    rw [this] at h
    cases h
    simp at hr
  obtain ⟨-, -, hch, -⟩ := c19_sorted_tiling he hG hp hne h
  obtain ⟨hi, rfl⟩ := List.getElem?_eq_some_iff.1 hr
  obtain ⟨hi', rfl⟩ := List.getElem?_eq_some_iff.1 hs
  have hb := List.isChain_iff_getElem.1 hch i hi'
  obtain ⟨h1, -, h3⟩ := List.pairwise_iff_getElem.1 (ranges_sums he hG hp h) i (i + 1) hi hi' (by omega)
  refine ⟨hb, h3 hb, ?_⟩
  have := h3 hb
  simp only [modularity_affine] at this
  rw [eq_div_iff (by linarith)]
  linarith

/-- **C118 (the first range).** On a window from 0 the first range belongs to a partition with the most edges within communities; on a
connected graph this is the partition into one community, if that was given. -/
theorem c118_first (he : SoundEnv env) (hG : G.WF) (hp : ∀ c ∈ parts, c.length = G.vcount)
    (h : champ2D env G parts 0 γf st = (some (.ok ranges) : Option _)) {r : ℝ × ℝ × List α} (hr : ranges[0]? = some r) :
    (∀ c ∈ parts, edgesWithin G c ≤ edgesWithin G r.2.2) ∧
    (G.IsConnected → (∃ c ∈ parts, ∀ x ∈ c, ∀ y ∈ c, x = y) → ∀ x ∈ r.2.2, ∀ y ∈ r.2.2, x = y) := by
  have hne : parts ≠ [] := by
    rintro rfl
    have : champ2D env G ([] : List (List α)) 0 γf st = (some (.ok []) : Option _) := rfl
    rw [this] at h
    cases h
    simp at hr
  have hrm := List.mem_of_getElem? hr
  obtain ⟨-, hlt, -, hmem, hiff⟩ := c17_ranges_correct he hG hp h r hrm
  have hstart : r.1 = 0 := by
    have := (c19_sorted_tiling he hG hp hne h).1
    rw [List.head?_eq_getElem?, hr] at this
    simpa using this
  have hmost : ∀ c ∈ parts, edgesWithin G c ≤ edgesWithin G r.2.2 := by
    intro c hc
    have := ((hiff 0).mp ⟨hstart.le, hstart ▸ hlt.le⟩).2 c hc
    simp only [modularity_affine, zero_mul, sub_zero] at this
    by_contra hlt'
    push Not at hlt'
    rw [withinAdj_edgesWithin hG (hp c hc), withinAdj_edgesWithin hG (hp _ hmem)] at this
    have hlt' : (edgesWithin G r.2.2 : ℝ) < edgesWithin G c := by exact_mod_cast hlt'
    split at this <;> linarith
  refine ⟨hmost, ?_⟩
  rintro hcon ⟨c, hc, hone⟩
  have hall : edgesWithin G c = G.ecount := by
    unfold edgesWithin
    rw [List.filter_eq_self.2]
    · rfl
    · intro e he'
      have hw := hG.1 e he'
      have hl := hp c hc
      rw [decide_eq_true_eq, List.getElem?_eq_getElem (by omega), List.getElem?_eq_getElem (by omega)]
      exact congrArg some (hone _ (List.getElem_mem _) _ (List.getElem_mem _))
  have hrall : ∀ e ∈ G.edges, r.2.2[e.1]? = r.2.2[e.2]? := by
    have h1 : (G.edges.filter fun e => decide (r.2.2[e.1]? = r.2.2[e.2]?)).length = G.edges.length :=
      le_antisymm (List.length_filter_le _ _) (by have := hmost c hc; rw [hall] at this; exact this)
    have h2 := (List.filter_sublist (p := fun e : Nat × Nat => decide (r.2.2[e.1]? = r.2.2[e.2]?)) (l := G.edges)).eq_of_length h1
    intro e he'
    rw [← h2] at he'
    exact of_decide_eq_true (List.mem_filter.1 he').2
  have hpath : ∀ u v, Relation.ReflTransGen G.Step u v → r.2.2[u]? = r.2.2[v]? := by
    intro u v huv
    induction huv with
    | refl => rfl
    | tail _ hstep ih =>
      rcases hstep with h | ⟨-, h⟩
      · exact ih.trans (hrall _ h)
      · exact ih.trans (hrall _ h).symm
  intro x hx y hy
  obtain ⟨i, hi, rfl⟩ := List.getElem_of_mem hx
  obtain ⟨j, hj, rfl⟩ := List.getElem_of_mem hy
  have hl := hp _ hmem
  have := hpath i j (hcon.2 i (by omega) j (by omega))
  rw [List.getElem?_eq_getElem hi, List.getElem?_eq_getElem hj] at this
  exact Option.some.inj this

/-- **C118 (pruning).** On a window without negative resolutions `prune_to_stable_partitions` returns at most one partition more than the
graph has edges, in the order of strictly decreasing numbers of edges within communities. -/
theorem c118_pruned {β : Type} [LinearOrder β] {parts : List (List β)} {env : PruneEnv} {restrict : Option Nat} {out : List (List Nat)} {G' : Graph ℝ} (he : SoundPruneEnv env) (hG : G.WF)
    (hp : ∀ p ∈ parts, p.length = G.vcount) (h0 : 0 ≤ γ₀)
    (h : pruneToStable env G (.memberships parts) γ₀ γf restrict st = (some (.ok (out, G')) : Option _)) :
    out.length ≤ G.ecount + 1 ∧ out.Pairwise fun c d => edgesWithin G d < edgesWithin G c := by
  obtain ⟨ps, ⟨hnd, hps⟩, ranges, hch, hest, hsub, hout⟩ := pruneToStable_facts he h
  have hlen : ∀ c ∈ ps, c.length = G.vcount := by
    intro c hc
    obtain ⟨p, hpc, rfl⟩ := (hps c).mp hc
    rw [canon_length]; exact hp p hpc.1
  constructor
  · have h1 := hsub.length_le
    have h2 := c118_count he.toSoundEnv hG hlen h0 hch
    rw [List.length_map] at h1
    omega
  · refine List.Pairwise.sublist hsub ?_
    rw [List.pairwise_map]
    exact (c118_tradeoff he.toSoundEnv hG hlen hch).2 h0

section
variable {Gi Gx : Graph ℝ} {layer : List Nat} {ω₀ ωf : ℝ} {doms : List (List (ℝ × ℝ) × List α)}

/-- **C118 (how many domains).** On a window without negative resolutions no two domains of `CHAMP_3D` have the same numbers of
intralayer and of interlayer edges within communities; there are at most `(m + 1)(m' + 1)` of them, `m` and `m'` being the numbers of
intralayer and interlayer edges. -/
theorem c118_count_3D (he : SoundEnv env) (hM : Multilayer Gi Gx layer) (hp : ∀ c ∈ parts, c.length = Gi.vcount) (h0 : 0 ≤ γ₀)
    (h : champ3D env Gi Gx layer parts γ₀ γf ω₀ ωf = (some (.ok doms) : Option _)) :
    (doms.Pairwise fun d e => edgesWithin Gi d.2 ≠ edgesWithin Gi e.2 ∨ edgesWithin Gx d.2 ≠ edgesWithin Gx e.2) ∧
    doms.length ≤ (Gi.ecount + 1) * (Gx.ecount + 1) := by
  obtain ⟨-, hdiff, -, hint⟩ := c22_domains_disjoint he hM hp h
  have hcor := c21_domains_correct he hM hp h
  have hpos : ∀ d ∈ doms, ∃ q : ℝ × ℝ, 0 < q.1 ∧
      ∀ c ∈ parts, multilayerModularity Gi Gx layer q.1 q.2 c ≤ multilayerModularity Gi Gx layer q.1 q.2 d.2 := by
    intro d hd
    obtain ⟨q, hq⟩ := hint d hd
    obtain ⟨-, -, hiff⟩ := hcor d hd
    refine ⟨q, ?_, ((hiff q).mp (interior_subset hq)).2⟩
    have hsub : convexHull ℝ {q | q ∈ d.1} ⊆ Set.Ici (0 : ℝ) ×ˢ (Set.univ : Set ℝ) := by
      intro p hp
      exact ⟨h0.trans ((hiff p).mp hp).1.1.1, trivial⟩
    have := interior_mono hsub hq
    rw [interior_prod_eq, interior_Ici] at this
    exact this.1
  have hpw : doms.Pairwise fun d e => edgesWithin Gi d.2 ≠ edgesWithin Gi e.2 ∨ edgesWithin Gx d.2 ≠ edgesWithin Gx e.2 := by
    refine List.Pairwise.imp_of_mem ?_ hdiff
    rintro d e hd he' ⟨γ, ω, hne⟩
    by_contra hc
    push Not at hc
    have hdm := (hcor d hd).1
    have hem := (hcor e he').1
    have hA : withinAdj Gi d.2 = withinAdj Gi e.2 := by
      rw [withinAdj_edgesWithin hM.intra (hp _ hdm), withinAdj_edgesWithin hM.intra (hp _ hem), hc.1]
    have hC : withinAdj Gx d.2 = withinAdj Gx e.2 := by
      rw [withinAdj_edgesWithin hM.inter (by rw [hp _ hdm, hM.vcount]), withinAdj_edgesWithin hM.inter (by rw [hp _ hem, hM.vcount]), hc.2]
    obtain ⟨q, hq0, hq⟩ := hpos d hd
    obtain ⟨q', hq0', hq'⟩ := hpos e he'
    have h1 := hq _ hem
    have h2 := hq' _ hdm
    unfold multilayerModularity at h1 h2 hne
    rw [hA, hC] at h1 h2 hne
    have h3 : withinNullLayered Gi layer d.2 = withinNullLayered Gi layer e.2 := by
      refine le_antisymm ?_ ?_
      · exact le_of_mul_le_mul_left (by linarith) hq0
      · exact le_of_mul_le_mul_left (by linarith) hq0'
    exact hne (by rw [h3])
  refine ⟨hpw, ?_⟩
  have hnd : (doms.map fun d => (edgesWithin Gi d.2, edgesWithin Gx d.2)).Nodup := by
    rw [List.nodup_iff_pairwise_ne, List.pairwise_map]
    refine hpw.imp fun h he => ?_
    cases he' : h <;> simp_all
  have hsub : (doms.map fun d => (edgesWithin Gi d.2, edgesWithin Gx d.2)) ⊆
      List.range (Gi.ecount + 1) ×ˢ List.range (Gx.ecount + 1) := by
    intro n hn
    obtain ⟨d, -, rfl⟩ := List.mem_map.1 hn
    rw [List.mem_product (a := edgesWithin Gi d.2)]
    exact ⟨List.mem_range.2 (Nat.lt_succ_of_le (edgesWithin_le Gi d.2)), List.mem_range.2 (Nat.lt_succ_of_le (edgesWithin_le Gx d.2))⟩
  have := (List.subperm_of_subset hnd hsub).length_le
  rw [List.length_product] at this
  simpa using this

/-- **C118 (multilayer pruning).** The same bound for `prune_to_multilayer_stable_partitions`. -/
theorem c118_pruned_3D {β : Type} [LinearOrder β] {parts : List (List β)} {env : PruneEnv} {model : String} {restrict : Option Nat} {out : List (List Nat)} {G' : Graph ℝ}
    (he : SoundPruneEnv env) (hM : Multilayer Gi Gx layer) (hp : ∀ p ∈ parts, p.length = Gi.vcount) (h0 : 0 ≤ γ₀)
    (h : pruneToMultilayerStable env Gi Gx layer model (.memberships parts) γ₀ γf ω₀ ωf restrict st =
      (some (.ok (out, G')) : Option _)) :
    out.length ≤ (Gi.ecount + 1) * (Gx.ecount + 1) := by
  obtain ⟨ps, ⟨hnd, hps⟩, doms, hch, hest, hsub, hout⟩ := pruneToMultilayerStable_facts he hM hp h
  have hlen : ∀ c ∈ ps, c.length = Gi.vcount := by
    intro c hc
    obtain ⟨p, hpc, rfl⟩ := (hps c).mp hc
    rw [canon_length]; exact hp p hpc.1
  have h1 := hsub.length_le
  have h2 := (c118_count_3D he.toSoundEnv hM hlen h0 hch).2
  rw [List.length_map] at h1
  omega

end

-- a returned result of `CHAMP_2D` on the square with a pendant edge: the hypotheses are met
example : ∃ ranges, champ2D exactEnv gReal [[0, 0, 0, 0, 0], [0, 0, 1, 1, 1], [0, 1, 2, 3, 4]] 0 2 false =
    (some (.ok ranges) : Option _) ∧ ranges.length ≤ 6 ∧ ranges.Pairwise fun r s => edgesWithin gReal s.2.2 < edgesWithin gReal r.2.2 := by
  obtain ⟨ranges, h⟩ := c17_returns (parts := [[0, 0, 0, 0, 0], [0, 0, 1, 1, 1], [0, 1, 2, 3, 4]]) (γ₀ := 0) (γf := 2) exactEnv_exact
    gReal_wf rfl (by decide) (by decide) (by decide) (by norm_num) false
  exact ⟨ranges, h, c118_count exactEnv_exact.toSoundEnv gReal_wf (by decide) le_rfl h,
    (c118_tradeoff exactEnv_exact.toSoundEnv gReal_wf (by decide) h).2 le_rfl⟩
example : edgesWithin gReal [0, 0, 0, 0, 0] = 5 ∧ edgesWithin gReal [0, 0, 1, 1, 1] = 3 ∧ edgesWithin gReal [0, 1, 2, 3, 4] = 0 := by
  decide +kernel

end Verif.Props
