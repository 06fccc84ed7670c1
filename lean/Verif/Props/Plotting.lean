import Mathlib.Analysis.Convex.KreinMilman
import Mathlib.Analysis.Convex.Extreme
import Verif.Proofs.Plotting
import Verif.Props.Champ3D

/-!
# Properties C59, C60, C61, C66, C67: plotting
-/

namespace Verif.Props
open Verif Verif.Spec

section Colours
variable {R C M : Type} [DecidableEq R] [LinearOrder C] {palette : Nat → Nat → C} {shuffle : List C → List C}
  {pick : Nat → Nat} {flip : Bool} {domains : List (List (R × R) × List M)} {plot : DomainPlot R C}

/-- **C59.** Whatever the random numbers: if `plot_2d_domains` returns, it has drawn every domain once, in order (with
swapped coordinates if asked to), every domain has a colour of the palette, and two different domains with a common vertex
have different colours. -/
theorem c59_adjacent_domains_differ (hsh : ∀ l, (shuffle l).Perm l)
    (h : plotDomains palette shuffle pick flip domains = .ok plot) :
    plot.patches = domains.map (fun d => if flip then d.1.map Prod.swap else d.1) ∧
    plot.colours.length = domains.length ∧
    (∀ c ∈ plot.colours, ∃ i < domains.length, c = some (palette domains.length i)) ∧
    ∀ (i j : Nat) d e, i ≠ j → domains[i]? = some d → domains[j]? = some e → (∃ v, v ∈ d.1 ∧ v ∈ e.1) →
      plot.colours[i]? ≠ plot.colours[j]? := by
  have hpatch : (domains.map fun d => flipAxes flip d.1) =
      domains.map (fun d => if flip then d.1.map Prod.swap else d.1) := by
    unfold flipAxes; rfl
  have hav : ∀ c ∈ availableColours palette domains.length, ∃ i < domains.length, c = palette domains.length i := by
    intro c hc
    unfold availableColours at hc
    rw [List.mem_dedup] at hc
    obtain ⟨i, hi, rfl⟩ := List.mem_map.mp hc
    exact ⟨i, List.mem_range.mp hi, rfl⟩
  unfold plotDomains at h
  simp only at h
  split at h
  · rename_i hlen
    cases h
    refine ⟨hpatch, ?_, ?_, ?_⟩
    · simp only [List.length_map]
      rw [(hsh _).length_eq, hlen]
    · intro c hc
      obtain ⟨c', hc', rfl⟩ := List.mem_map.mp hc
      obtain ⟨i, hi, rfl⟩ := hav c' ((hsh _).mem_iff.mp hc')
      exact ⟨i, hi, rfl⟩
    · intro i j d e hij hd he _
      have hi : i < domains.length := (List.getElem?_eq_some_iff.mp hd).1
      have hnd : ((shuffle (availableColours palette domains.length)).map some).Nodup :=
        ((hsh _).nodup_iff.mpr (List.nodup_dedup _)).map (Option.some_injective C)
      simp only
      intro heq
      have hl : ((shuffle (availableColours palette domains.length)).map some).length = domains.length := by
        rw [List.length_map, (hsh _).length_eq, hlen]
      exact hij ((List.getElem?_inj (by rw [hl]; exact hi) hnd).mp heq)
  · obtain ⟨colours, hc, h⟩ := Py.bind_ok' h
    cases h
    have hcol := greedyColours_sound (domains.map Prod.fst) 0 rfl (by simp)
      (by simpa using coloured_start (domains.map Prod.fst) (availableColours palette domains.length)) hc
    have hl : colours.length = domains.length := by rw [hcol.length, List.length_map]
    refine ⟨hpatch, hl, ?_, ?_⟩
    · intro c hc
      obtain ⟨i, hi, rfl⟩ := List.getElem_of_mem hc
      have hi' : i < (domains.map Prod.fst).length := by rw [← hcol.length]; exact hi
      obtain ⟨c, hca, he⟩ := hcol.done i hi' hi'
      obtain ⟨k, hk, rfl⟩ := hav c hca
      simp only at hi
      rw [List.getElem?_eq_getElem hi] at he
      exact ⟨k, hk, Option.some.inj he⟩
    · intro i j d e hij hd he hv
      have hd' : (domains.map Prod.fst)[i]? = some d.1 := by rw [List.getElem?_map, hd]; rfl
      have he' : (domains.map Prod.fst)[j]? = some e.1 := by rw [List.getElem?_map, he]; rfl
      have hi : i < (domains.map Prod.fst).length := (List.getElem?_eq_some_iff.mp hd').1
      have hj : j < (domains.map Prod.fst).length := (List.getElem?_eq_some_iff.mp he').1
      rcases Nat.lt_or_gt_of_ne hij with hij | hij
      · exact hcol.proper i j _ _ hij hj hd' he' hv
      · obtain ⟨v, h1, h2⟩ := hv
        exact (hcol.proper j i _ _ hij hi he' hd' ⟨v, h2, h1⟩).symm

/-- **C59.** The only exception is `ValueError`. -/
theorem c59_only_value_error {e : PyErr} (h : plotDomains palette shuffle pick flip domains = .error e) :
    ∃ msg, e = .valueError msg := by
  unfold plotDomains at h
  simp only at h
  split at h
  · cases h
  · cases hg : greedyColours pick (availableColours palette domains.length) (vertexDomains (domains.map Prod.fst))
        (domains.map Prod.fst).zipIdx (List.replicate domains.length none) with
    | ok c => rw [hg, Py.ok_bind] at h; cases h
    | error e' => rw [hg, Py.error_bind] at h; cases h; exact greedyColours_error _ _ hg

open Classical in
/-- **C59.** It returns for every random choice if each domain shares vertices with fewer earlier domains than there are
colours. -/
theorem c59_returns
    (hfew : ∀ (j : Nat) e, domains[j]? = some e →
      ((List.range j).filter fun i => decide (∃ d, domains[i]? = some d ∧ ∃ v, v ∈ e.1 ∧ v ∈ d.1)).length <
        ((List.range domains.length).map (palette domains.length)).toFinset.card) :
    ∃ plot, plotDomains palette shuffle pick flip domains = .ok plot := by
  unfold plotDomains
  simp only
  split
  · exact ⟨_, rfl⟩
  · obtain ⟨out, ho⟩ := greedyColours_returns (polys := domains.map Prod.fst)
      (available := availableColours palette domains.length) (pick := pick) (List.nodup_dedup _) (by
        intro k p hp
        rw [List.getElem?_map, Option.map_eq_some_iff] at hp
        obtain ⟨e, he, rfl⟩ := hp
        have := hfew k e he
        rw [List.card_toFinset] at this
        unfold availableColours
        convert this using 5
        rename_i i
        rw [List.getElem?_map]
        constructor
        · rintro ⟨q, hq, v, h1, h2⟩
          obtain ⟨d, hd, rfl⟩ := Option.map_eq_some_iff.mp hq
          exact ⟨d, hd, v, h1, h2⟩
        · rintro ⟨d, hd, v, h1, h2⟩
          exact ⟨d.1, by rw [hd]; rfl, v, h1, h2⟩)
      (domains.map Prod.fst) 0 rfl (by simp) (coloured_start _ _)
    rw [List.length_map] at ho
    rw [ho, Py.ok_bind]
    exact ⟨_, rfl⟩

/-- **C59.** The palette has at most 9 colours (matplotlib's `Set1`), so 10 domains that pairwise share vertices – for
instance 10 domains meeting in one point – always end in a `ValueError`. -/
theorem c59_too_many_neighbours (hsh : ∀ l, (shuffle l).Perm l) {S : Finset Nat}
    (hS : ∀ i ∈ S, ∀ j ∈ S, i ≠ j → ∃ d e, domains[i]? = some d ∧ domains[j]? = some e ∧ ∃ v, v ∈ d.1 ∧ v ∈ e.1)
    (hcard : ((List.range domains.length).map (palette domains.length)).toFinset.card < S.card) (h2 : 2 ≤ S.card) :
    ∃ msg, plotDomains palette shuffle pick flip domains = .error (.valueError msg) := by
  cases hp : plotDomains palette shuffle pick flip domains with
  | error e =>
    obtain ⟨msg, rfl⟩ := c59_only_value_error hp
    exact ⟨msg, rfl⟩
  | ok plot =>
    exfalso
    obtain ⟨-, hlen, hpal, hdiff⟩ := c59_adjacent_domains_differ hsh hp
    have hin : ∀ i ∈ S, i < domains.length := by
      intro i hi
      obtain ⟨j, hj, hij⟩ : ∃ j ∈ S, j ≠ i := by
        by_contra hno
        push Not at hno
        have : S ⊆ {i} := fun x hx => by rw [Finset.mem_singleton]; exact hno x hx
        have := Finset.card_le_card this
        rw [Finset.card_singleton] at this
        omega
      obtain ⟨d, e, hd, -⟩ := hS i hi j hj (Ne.symm hij)
      exact (List.getElem?_eq_some_iff.mp hd).1
    have hmaps : ∀ i ∈ S, plot.colours[i]? ∈ (((List.range domains.length).map (palette domains.length)).toFinset.image
        fun c => some (some c)) := by
      intro i hi
      have hi' : i < plot.colours.length := by rw [hlen]; exact hin i hi
      rw [List.getElem?_eq_getElem hi', Finset.mem_image]
      obtain ⟨k, hk, he⟩ := hpal _ (List.getElem_mem hi')
      exact ⟨_, List.mem_toFinset.mpr (List.mem_map.mpr ⟨k, List.mem_range.mpr hk, rfl⟩), by rw [he]⟩
    obtain ⟨i, hi, j, hj, hij, he⟩ := Finset.exists_ne_map_eq_of_card_lt_of_maps_to
      (lt_of_le_of_lt Finset.card_image_le hcard) hmaps
    obtain ⟨d, e, hd, he', hv⟩ := hS i hi j hj hij
    exact hdiff i j d e hij hd he' hv he

/-- matplotlib's `Set1` has nine colours; position `i` of `n` gets the colour number `⌊9 i / n⌋`. -/
def set1 (n i : Nat) : Nat := 9 * i / n

/-- A strip of twelve unit squares: more domains than colours, neighbours share an edge. -/
def strip : List (List (Nat × Nat) × List Int) :=
  (List.range 12).map fun i => ([(i, 0), (i + 1, 0), (i + 1, 1), (i, 1)], [0])

example : plotDomains set1 List.reverse (fun i => 7 * i) true strip =
    .ok ⟨(List.range 12).map fun i => [(0, i), (0, i + 1), (1, i + 1), (1, i)],
      [0, 8, 6, 5, 4, 3, 2, 1, 0, 8, 6, 5].map some⟩ := by decide +kernel

/-- Ten triangles around one corner. -/
def fan : List (List (Nat × Nat) × List Int) :=
  (List.range 10).map fun i => ([(0, 0), (i, 1), (i + 1, 1)], [0])

example : ∃ msg, plotDomains set1 List.reverse (fun i => 7 * i) true fan = .error (.valueError msg) := by
  refine c59_too_many_neighbours (S := Finset.range 10) (fun l => List.reverse_perm l) ?_ (by decide +kernel) (by decide)
  intro i hi j hj _
  rw [Finset.mem_range] at hi hj
  refine ⟨_, _, by unfold fan; rw [List.getElem?_map, List.getElem?_range hi]; rfl,
    by unfold fan; rw [List.getElem?_map, List.getElem?_range hj]; rfl, (0, 0), by simp, by simp⟩

end Colours

section Touching
variable {α : Type} [DecidableEq α] {env : ChampEnv} {Gi Gx : Graph ℝ} {layer : List Nat} {parts : List (List α)}
  {γ₀ γf ω₀ ωf : ℝ} {doms : List (List (ℝ × ℝ) × List α)}

theorem multilayerModularity_affine (Gi Gx : Graph ℝ) (layer : List Nat) (c : List α) {a b : ℝ} (hab : a + b = 1)
    (p q : ℝ × ℝ) : multilayerModularity Gi Gx layer (a • p + b • q).1 (a • p + b • q).2 c =
      a * multilayerModularity Gi Gx layer p.1 p.2 c + b * multilayerModularity Gi Gx layer q.1 q.2 c := by
  unfold multilayerModularity
  have : b = 1 - a := by linarith
  subst this
  simp only [Prod.fst_add, Prod.snd_add, Prod.smul_fst, Prod.smul_snd, smul_eq_mul]
  ring

/-- **C59.** In exact arithmetic, the vertex test of `plot_2d_domains` sees every contact: two domains returned by
`CHAMP_3D` that touch (in a side, a corner, anything) have a common listed vertex. -/
theorem c59_touching_domains_share_vertex (he : SoundEnv env) (hM : Multilayer Gi Gx layer)
    (hp : ∀ c ∈ parts, c.length = Gi.vcount)
    (h : champ3D env Gi Gx layer parts γ₀ γf ω₀ ωf = (some (.ok doms) : Option _))
    {d e : List (ℝ × ℝ) × List α} (hd : d ∈ doms) (hed : e ∈ doms)
    (htouch : (convexHull ℝ {q | q ∈ d.1} ∩ convexHull ℝ {q | q ∈ e.1}).Nonempty) : ∃ v, v ∈ d.1 ∧ v ∈ e.1 := by
  obtain ⟨hdp, -, hdq⟩ := c21_domains_correct he hM hp h d hd
  obtain ⟨hep, -, heq⟩ := c21_domains_correct he hM hp h e hed
  set A := convexHull ℝ {q | q ∈ d.1} with hA
  set B := convexHull ℝ {q | q ∈ e.1} with hB
  have hcA : IsCompact A := (List.finite_toSet d.1).isCompact_convexHull (𝕜 := ℝ)
  have hcB : IsCompact B := (List.finite_toSet e.1).isCompact_convexHull (𝕜 := ℝ)
  have hval : ∀ q, q ∈ A ∩ B → multilayerModularity Gi Gx layer q.1 q.2 d.2 =
      multilayerModularity Gi Gx layer q.1 q.2 e.2 := fun q hq =>
    le_antisymm (((heq q).mp hq.2).2 _ hdp) (((hdq q).mp hq.1).2 _ hep)
  -- the contact set is a face of either domain
  have face : ∀ {X Y : Set (ℝ × ℝ)} {c c' : List α}, c ∈ parts → c' ∈ parts →
      (∀ q, q ∈ X ↔ ((γ₀ ≤ q.1 ∧ q.1 ≤ γf) ∧ ω₀ ≤ q.2 ∧ q.2 ≤ ωf) ∧ ∀ c₁ ∈ parts,
        multilayerModularity Gi Gx layer q.1 q.2 c₁ ≤ multilayerModularity Gi Gx layer q.1 q.2 c) →
      (∀ q, q ∈ Y ↔ ((γ₀ ≤ q.1 ∧ q.1 ≤ γf) ∧ ω₀ ≤ q.2 ∧ q.2 ≤ ωf) ∧ ∀ c₁ ∈ parts,
        multilayerModularity Gi Gx layer q.1 q.2 c₁ ≤ multilayerModularity Gi Gx layer q.1 q.2 c') →
      IsExtreme ℝ X (X ∩ Y) := by
    intro X Y c c' hc hc' hX hY
    refine ⟨Set.inter_subset_left, ?_⟩
    intro p hpX q hqX x hx hseg
    obtain ⟨a, b, ha, hb, hab, rfl⟩ := hseg
    have e1 := multilayerModularity_affine Gi Gx layer c hab p q
    have e2 := multilayerModularity_affine Gi Gx layer c' hab p q
    have hp1 := ((hX p).mp hpX).2 c' hc'
    have hq1 := ((hX q).mp hqX).2 c' hc'
    have hx1 := ((hY _).mp hx.2).2 c hc
    have key : multilayerModularity Gi Gx layer p.1 p.2 c ≤ multilayerModularity Gi Gx layer p.1 p.2 c' := by
      rw [e1, e2] at hx1
      by_contra hlt
      push Not at hlt
      nlinarith
    exact ⟨hpX, (hY p).mpr ⟨((hX p).mp hpX).1, fun c₁ hc₁ => (((hX p).mp hpX).2 c₁ hc₁).trans key⟩⟩
  have fA : IsExtreme ℝ A (A ∩ B) := face hdp hep hdq heq
  have fB : IsExtreme ℝ B (B ∩ A) := face hep hdp heq hdq
  obtain ⟨v, hv⟩ := (hcA.inter hcB).extremePoints_nonempty htouch
  refine ⟨v, ?_, ?_⟩
  · have := fA.extremePoints_subset_extremePoints hv
    exact (extremePoints_convexHull_subset (𝕜 := ℝ) (A := {q | q ∈ d.1})) this
  · rw [Set.inter_comm] at hv
    have := fB.extremePoints_subset_extremePoints hv
    exact (extremePoints_convexHull_subset (𝕜 := ℝ) (A := {q | q ∈ e.1})) this

/-- **C59.** Put together: colouring the domains of `CHAMP_3D`, touching domains never get the same colour. -/
theorem c59_champ_domains {C : Type} [LinearOrder C] {palette : Nat → Nat → C} {shuffle : List C → List C}
    {pick : Nat → Nat} {flip : Bool} {plot : DomainPlot ℝ C} (hsh : ∀ l, (shuffle l).Perm l) (he : SoundEnv env)
    (hM : Multilayer Gi Gx layer) (hp : ∀ c ∈ parts, c.length = Gi.vcount)
    (h : champ3D env Gi Gx layer parts γ₀ γf ω₀ ωf = (some (.ok doms) : Option _))
    (hplot : plotDomains palette shuffle pick flip doms = .ok plot) (i j : Nat) {d e : List (ℝ × ℝ) × List α} (hij : i ≠ j)
    (hd : doms[i]? = some d) (hed : doms[j]? = some e)
    (htouch : (convexHull ℝ {q | q ∈ d.1} ∩ convexHull ℝ {q | q ∈ e.1}).Nonempty) :
    plot.colours[i]? ≠ plot.colours[j]? :=
  (c59_adjacent_domains_differ hsh hplot).2.2.2 i j d e hij hd hed
    (c59_touching_domains_share_vertex he hM hp h (List.mem_of_getElem? hd) (List.mem_of_getElem? hed) htouch)

end Touching

/-! ## C60 -/

section Multiplex
variable {m lv : List Nat} {T : Nat}

theorem plotMultiplex_layers (hT : ∀ l ∈ lv, l < T) (hmax : ∃ l ∈ lv, l + 1 = T) : countLayers lv = .ok T := by
  obtain ⟨l, hl, hlT⟩ := hmax
  obtain ⟨T', h1, h2, h3, h4⟩ := countLayers_ok (List.ne_nil_of_mem hl)
  have := hT _ h3
  have := h2 _ hl
  have : T' = T := by omega
  rw [h1, this]

theorem layerColumn_array {N t : Nat} (hl : lv.length = m.length) (hN : (layerVertices lv t).length = N) :
    layerColumn N (.array m) (.array lv) t =
      .ok ((m.zip lv).filterMap fun cl => if cl.2 = t then some cl.1 else none) := by
  unfold layerColumn
  simp only [ne_eq, hl, not_true_eq_false, if_false]
  unfold assignColumn
  rw [if_pos (by rw [column_length m lv hl, hN])]

/-- **C60 (arrays only).** For numpy arrays of equal length in which each of the `T` layers has `N` vertices, the plotted
array has one column per layer with `N` entries, and its entry `(n, t)` is the community of the `n`-th vertex of layer `t`.
Missing from the full claim: the documented argument types, for which it is false (`c60_documented_types`). -/
theorem c60_arrays_partial (hl : lv.length = m.length) (hT : ∀ l ∈ lv, l < T) (hmax : ∃ l ∈ lv, l + 1 = T) {N : Nat}
    (hN : ∀ t < T, (layerVertices lv t).length = N) :
    ∃ cols, plotMultiplex (.array m) (.array lv) = .ok cols ∧ cols.length = T ∧
      ∀ t < T, ∃ col, cols[t]? = some col ∧ col.length = N ∧
        ∀ n < N, ∃ v, (layerVertices lv t)[n]? = some v ∧ v < m.length ∧ col[n]? = m[v]? := by
  have hTpos : 0 < T := by obtain ⟨l, -, h⟩ := hmax; omega
  have hlen : m.length / T = N := by
    have hs := sum_layer_counts hT
    have : ∀ t ∈ Finset.range T, lv.count t = N := by
      intro t ht
      rw [← layerVertices_length]; exact hN t (Finset.mem_range.mp ht)
    rw [Finset.sum_congr rfl this, Finset.sum_const, Finset.card_range, smul_eq_mul] at hs
    rw [← hl, ← hs, Nat.mul_div_cancel_left _ hTpos]
  refine ⟨(List.range T).map fun t => (m.zip lv).filterMap fun cl => if cl.2 = t then some cl.1 else none, ?_, by simp, ?_⟩
  · unfold plotMultiplex
    simp only [PySeq.toList]
    rw [plotMultiplex_layers hT hmax, Py.ok_bind, hlen]
    exact mapM_ok fun t ht => layerColumn_array hl (hN t (List.mem_range.mp ht))
  · intro t ht
    refine ⟨_, by rw [List.getElem?_map, List.getElem?_range ht]; rfl, ?_, ?_⟩
    · rw [column_length m lv hl, hN t ht]
    · intro n hn
      have hn' : n < (layerVertices lv t).length := by rw [hN t ht]; exact hn
      refine ⟨_, List.getElem?_eq_getElem hn', ?_, column_get m lv hl t n (List.getElem?_eq_getElem hn')⟩
      have := List.getElem_mem hn'
      unfold layerVertices at this
      rw [← hl]
      exact List.mem_range.mp (List.mem_of_mem_filter this)

/-- **C60 (arrays only).** Layers of different sizes (with at least as many vertices as layers) are not plotted wrongly:
the call raises `ValueError`. -/
theorem c60_uneven_layers_partial (hl : lv.length = m.length) (hT : ∀ l ∈ lv, l < T) (hmax : ∃ l ∈ lv, l + 1 = T)
    (hbig : T ≤ m.length) {t t' : Nat} (ht : t < T) (ht' : t' < T)
    (hne : (layerVertices lv t).length ≠ (layerVertices lv t').length) :
    ∃ msg, plotMultiplex (.array m) (.array lv) = .error (.valueError msg) := by
  have hTpos : 0 < T := by omega
  refine ⟨"could not broadcast input array", ?_⟩
  unfold plotMultiplex
  simp only [PySeq.toList]
  rw [plotMultiplex_layers hT hmax, Py.ok_bind]
  refine mapM_first_error ?_ ?_
  · intro x _ e he
    unfold layerColumn at he
    simp only [ne_eq, hl, not_true_eq_false, if_false] at he
    unfold assignColumn at he
    split at he
    · cases he
    · split at he <;> cases he
      rfl
  · by_contra hno
    push Not at hno
    have hc : ∀ s < T, lv.count s = lv.length / T ∨ lv.count s = 1 := by
      intro s hs
      by_contra hcon
      push Not at hcon
      refine hno s (List.mem_range.mpr hs) ?_
      unfold layerColumn
      simp only [ne_eq, hl, not_true_eq_false, if_false]
      unfold assignColumn
      have hcl := column_length m lv hl s
      rw [layerVertices_length] at hcl
      rw [if_neg (by rw [hcl, ← hl]; exact hcon.1)]
      split
      · rename_i x hx
        rw [hx] at hcl
        exact absurd hcl.symm hcon.2
      · rfl
    have := count_eq_of_one_or hT (by rw [hl]; exact Nat.div_pos hbig hTpos) hc
    rw [layerVertices_length, layerVertices_length, this t ht, this t' ht'] at hne
    exact hne rfl

/-- **C60.** With the documented types – a tuple and a list – the picture never depends on the partition beyond its first
label: every cell shows the community of vertex 0. -/
theorem c60_documented_types (hT : ∀ l ∈ lv, l < T) (hmax : ∃ l ∈ lv, l + 1 = T) (c : Nat) :
    plotMultiplex (.builtin (c :: m)) (.builtin lv) =
      .ok (List.replicate T (List.replicate ((c :: m).length / T) c)) := by
  unfold plotMultiplex
  simp only [PySeq.toList]
  rw [plotMultiplex_layers hT hmax, Py.ok_bind]
  rw [mapM_ok (g := fun _ => List.replicate ((c :: m).length / T) c)]
  · rw [List.map_const', List.length_range]
  · intro t _
    rfl

/-- **C60.** Hence the claim is false for the documented types: two layers with two vertices each and communities 0, 1 in
both are drawn as a single community. -/
theorem c60_documented_types_wrong : ¬ ∀ m lv : List Nat, lv.length = m.length →
    (∀ t < 2, (layerVertices lv t).length = 2) → ∀ cols, plotMultiplex (.builtin m) (.builtin lv) = .ok cols →
      ∀ t < 2, ∀ n < 2, ∃ col v, cols[t]? = some col ∧ (layerVertices lv t)[n]? = some v ∧ col[n]? = m[v]? := by
  intro h
  obtain ⟨col, v, h1, h2, h3⟩ := h [0, 1, 0, 1] [0, 0, 1, 1] rfl (by decide) [[0, 0], [0, 0]] (by decide) 0 (by omega) 1
    (by omega)
  cases h1
  have : (layerVertices [0, 0, 1, 1] 0)[1]? = some 1 := by decide
  rw [this] at h2
  cases h2
  exact absurd h3 (by decide)

/-- **C60.** Mixing the two kinds never plots anything: `TypeError` for a tuple with an array of layers, `ValueError` for an
array with a list of layers; arrays of different lengths raise `IndexError`. -/
theorem c60_mixed_types (hT : ∀ l ∈ lv, l < T) (hmax : ∃ l ∈ lv, l + 1 = T) :
    plotMultiplex (.builtin m) (.array lv) = .error .typeError ∧
    (∃ msg, plotMultiplex (.array m) (.builtin lv) = .error (.valueError msg)) ∧
    (lv.length ≠ m.length → plotMultiplex (.array m) (.array lv) = .error .indexError) := by
  have h0 : 0 ∈ List.range T := by obtain ⟨l, -, h⟩ := hmax; exact List.mem_range.mpr (by omega)
  refine ⟨?_, ⟨"could not broadcast input array", ?_⟩, fun hne => ?_⟩ <;>
    (unfold plotMultiplex; simp only [PySeq.toList]; rw [plotMultiplex_layers hT hmax, Py.ok_bind]) <;>
    refine mapM_first_error ?_ ⟨0, h0, ?_⟩
  · intro x _ e he; cases he; rfl
  · rfl
  · intro x _ e he; cases he; rfl
  · rfl
  · intro x _ e he
    unfold layerColumn at he
    simp only [ne_eq, hne, not_false_eq_true, if_true] at he
    cases he; rfl
  · unfold layerColumn
    simp only [ne_eq, hne, not_false_eq_true, if_true]

example : plotMultiplex (.array [5, 0, 7, 1, 2, 3]) (.array [1, 0, 1, 0, 2, 2]) = .ok [[0, 1], [5, 7], [2, 3]] := by
  decide
example : (∀ l ∈ [1, 0, 1, 0, 2, 2], l < 3) ∧ (∃ l ∈ [1, 0, 1, 0, 2, 2], l + 1 = 3) ∧
    ∀ t < 3, (layerVertices [1, 0, 1, 0, 2, 2] t).length = 2 := by decide
example : plotMultiplex (.array [5, 0, 7, 1]) (.array [1, 0, 1, 1]) =
    .error (.valueError "could not broadcast input array") := by decide
example : plotMultiplex (.builtin [0, 1, 0, 1]) (.builtin [0, 0, 1, 1]) = .ok [[0, 0], [0, 0]] := by decide

end Multiplex

/-! ## C61 -/

section Estimates
variable {limits : List ((ℝ × ℝ) × Nat) → (ℝ × ℝ) × (ℝ × ℝ)} {ests : List (ℝ × ℝ × List Int × Option (Fl ℝ))}
  {plot : RangePlot}

/-- The entries that have an estimate, with it. -/
def withEstimate (ests : List (ℝ × ℝ × List Int × Option (Fl ℝ))) : List ((ℝ × ℝ × List Int × Option (Fl ℝ)) × Fl ℝ) :=
  ests.filterMap fun e => e.2.2.2.map fun g => (e, g)

theorem known_forall₂ {P : (ℝ × ℝ × List Int × Option (Fl ℝ)) → Nat → Prop} {ests ks}
    (h : List.Forall₂ P ests ks) :
    List.Forall₂ (fun eg x => x.1.1 = eg.1 ∧ x.2 = eg.2 ∧ P eg.1 x.1.2) (withEstimate ests)
      ((ests.zip ks).filterMap fun ek => ek.1.2.2.2.map fun g => (ek, g)) := by
  unfold withEstimate
  induction h with
  | nil => exact List.Forall₂.nil
  | @cons e k ests ks hek _ ih =>
    rw [List.zip_cons_cons, List.filterMap_cons, List.filterMap_cons]
    cases hg : e.2.2.2 with
    | none => simpa [hg] using ih
    | some g => simp only [Option.map_some]; exact List.Forall₂.cons ⟨rfl, rfl, hek⟩ ih

theorem segments_forall₂ {ests : List (ℝ × ℝ × List Int × Option (Fl ℝ))} {ks : List Nat}
    (h : List.Forall₂ (fun e k => numCommunities e.2.2.1 = .ok k) ests ks) :
    List.Forall₂ (fun e (s : (ℝ × ℝ) × Nat) => s.1 = (e.1, e.2.1) ∧ numCommunities e.2.2.1 = .ok s.2) ests
      ((ests.zip ks).map fun ek => ((ek.1.1, ek.1.2.1), ek.2)) := by
  induction h with
  | nil => exact List.Forall₂.nil
  | cons hek _ ih => exact List.Forall₂.cons ⟨rfl, hek⟩ ih

/-- **C61.** Each entry is drawn as a segment over its range at the height of its number of communities; and there is, in
order, exactly one arrow per entry with an estimate.  The arrow starts in the middle of the entry's segment.  Its head lies
within the axis limits (unless the estimate is NaN): horizontally at the estimate, or at the limit it exceeds; vertically at
the number of communities of the last range containing the estimate, or at the limit that exceeds, or at the upper limit if
no range contains it. -/
theorem c61_arrows (h : plotEstimates limits ests = .ok plot) :
    List.Forall₂ (fun e s => s.1 = (e.1, e.2.1) ∧ numCommunities e.2.2.1 = .ok s.2) ests plot.segments ∧
    ∀ xl xh yl yh, limits plot.segments = ((xl, xh), (yl, yh)) → xl ≤ xh → yl ≤ yh →
      List.Forall₂ (fun eg a =>
        (∃ k, numCommunities eg.1.2.2.1 = .ok k ∧ a.tail = (.fin ((eg.1.1 + eg.1.2.1) / 2), .fin (k : ℝ))) ∧
        (eg.2 ≠ .nan → InRange xl xh a.head.1 ∧ ∃ x, a.head.1 = .fin x ∧ IsClamp xl xh eg.2 x) ∧
        (eg.2 = .nan → a.head.1 = .nan) ∧
        InRange yl yh a.head.2 ∧
        ((∀ e ∈ ests, ¬ InRange e.1 e.2.1 eg.2) → a.head.2 = .fin yh) ∧
        ∀ (i : Nat) e k, ests[i]? = some e → InRange e.1 e.2.1 eg.2 → numCommunities e.2.2.1 = .ok k →
          (∀ (j : Nat) e', i < j → ests[j]? = some e' → ¬ InRange e'.1 e'.2.1 eg.2) →
          a.head.2 = .fin (max yl (min yh (k : ℝ))))
        (withEstimate ests) plot.arrows := by
  unfold plotEstimates at h
  obtain ⟨ks, hks, h⟩ := Py.bind_ok' h
  simp only [Py.pure_eq] at h
  cases h
  have hf := mapM_ok_forall₂ hks
  have hseg := segments_forall₂ hf
  refine ⟨hseg, ?_⟩
  intro xl xh yl yh hlim hx hy
  simp only at hlim ⊢
  set segs := (ests.zip ks).map fun ek => ((ek.1.1, ek.1.2.1), ek.2) with hsegs
  rw [List.forall₂_map_right_iff]
  refine (known_forall₂ hf).imp ?_
  rintro ⟨e, g⟩ ⟨⟨e', k⟩, g'⟩ ⟨h1, h2, h3⟩
  simp only at h1 h2 h3
  subst h1 h2
  rw [hlim]
  have hpos : ∀ r ∈ segs, 0 < r.2 := by
    intro r hr
    obtain ⟨i, hi, rfl⟩ := List.getElem_of_mem hr
    have hi' : i < ests.length := by rw [hseg.length_eq]; exact hi
    exact numCommunities_pos (hseg.get hi' hi).2
  have yrange : ∀ k : Nat, InRange yl yh (arrowHead (xl, xh) (yl, yh) g' k).2 := by
    intro k
    rw [arrowHead_y hy]
    refine ⟨_, rfl, ?_⟩
    split
    · exact ⟨hy, le_refl _⟩
    · exact ⟨le_max_left _ _, max_le hy (min_le_left _ _)⟩
  refine ⟨⟨k, h3, rfl⟩, ?_, ?_, yrange _, ?_, ?_⟩
  · intro hnn
    rcases arrowHead_x (xlim := (xl, xh)) (ylim := (yl, yh)) hx g' (communitiesAt g' segs) with ⟨hn, -⟩ | ⟨x, hx1, hx2⟩
    · exact absurd hn hnn
    · refine ⟨⟨x, hx1, ?_⟩, x, hx1, hx2⟩
      unfold IsClamp at hx2
      simp only at hx2
      cases g' with
      | nan => exact absurd rfl hnn
      | pinf => subst hx2; exact ⟨hx, le_refl _⟩
      | ninf => subst hx2; exact ⟨le_refl _, hx⟩
      | fin y => subst hx2; exact ⟨le_max_left _ _, max_le hx (min_le_left _ _)⟩
  · intro hn
    rcases arrowHead_x (xlim := (xl, xh)) (ylim := (yl, yh)) hx g' (communitiesAt g' segs) with ⟨-, h'⟩ | ⟨x, hx1, hx2⟩
    · exact h'
    · simp only at hn; subst hn; exact absurd hx2 id
  · intro hno
    simp only
    rw [arrowHead_y hy, communitiesAt_none, if_pos rfl]
    intro r hr
    obtain ⟨i, hi, rfl⟩ := List.getElem_of_mem hr
    have hi' : i < ests.length := by rw [hseg.length_eq]; exact hi
    have := (hseg.get hi' hi).1
    simp only [List.get_eq_getElem] at this
    rw [this]
    exact hno _ (List.getElem_mem hi')
  · intro i e k' hi hr hk' hlast
    simp only
    have hi' := (List.getElem?_eq_some_iff.mp hi).1
    have his : i < segs.length := by rw [← hseg.length_eq]; exact hi'
    have hg := hseg.get hi' his
    simp only [List.get_eq_getElem] at hg
    rw [(List.getElem?_eq_some_iff.mp hi).2] at hg
    have hkk : segs[i].2 = k' := by
      have := hg.2; rw [hk'] at this; exact (Except.ok.inj this).symm
    rw [arrowHead_y hy, communitiesAt_last (i := i) (r := segs[i]) (List.getElem?_eq_getElem his) (by rw [hg.1]; exact hr)]
    · rw [hkk, if_neg (by have := numCommunities_pos hk'; omega)]
    · intro j r' hj hr' hin
      have hjs := (List.getElem?_eq_some_iff.mp hr').1
      have hjl : j < ests.length := by rw [hseg.length_eq]; exact hjs
      have hg' := hseg.get hjl hjs
      simp only [List.get_eq_getElem] at hg'
      rw [(List.getElem?_eq_some_iff.mp hr').2] at hg'
      rw [hg'.1] at hin
      exact hlast j _ hj (List.getElem?_eq_getElem hjl) hin

/-- **C61.** It returns exactly if all memberships use the labels `0, …, k-1` without gaps. -/
theorem c61_returns : (∃ plot, plotEstimates limits ests = .ok plot) ↔ ∀ e ∈ ests, ∃ k, numCommunities e.2.2.1 = .ok k := by
  constructor
  · rintro ⟨plot, h⟩ e he
    obtain ⟨i, hi, rfl⟩ := List.getElem_of_mem he
    have := (c61_arrows h).1
    exact ⟨_, (this.get hi (by rw [← this.length_eq]; exact hi)).2⟩
  · intro h
    choose! k hk using h
    unfold plotEstimates
    rw [mapM_ok (g := k) hk, Py.ok_bind]
    exact ⟨_, rfl⟩

/-- Two ranges; the first partition's estimate lies in the second range, the second one's outside all ranges. -/
noncomputable def twoRanges : List (ℝ × ℝ × List Int × Option (Fl ℝ)) :=
  [(0, 1, [0, 0, 0], some (.fin (3 / 2))), (1, 2, [0, 1, 1], some (.fin 7)), (2, 3, [0, 1, 2], none)]

example : ∃ plot, plotEstimates (fun _ => ((0, 3), (1, 3))) twoRanges = .ok plot := by
  rw [c61_returns]
  intro e he
  simp only [twoRanges, List.mem_cons, List.not_mem_nil, or_false] at he
  rcases he with rfl | rfl | rfl
  · exact ⟨1, by decide⟩
  · exact ⟨2, by decide⟩
  · exact ⟨3, by decide⟩

example : withEstimate twoRanges = [((0, 1, [0, 0, 0], some (.fin (3 / 2))), .fin (3 / 2)),
    ((1, 2, [0, 1, 1], some (.fin 7)), .fin 7)] := by
  simp [withEstimate, twoRanges]

/-- **C61.** Dots: one per estimate that lies in some range, at the number of communities of the last such range. -/
theorem c61_dots (h : plotEstimates limits ests = .ok plot) :
    ∃ dot : Fl ℝ → Option (Fl ℝ × Nat), plot.dots = (withEstimate ests).filterMap (fun eg => dot eg.2) ∧
      ∀ g, ((∀ e ∈ ests, ¬ InRange e.1 e.2.1 g) → dot g = none) ∧
        ∀ (i : Nat) e k, ests[i]? = some e → InRange e.1 e.2.1 g → numCommunities e.2.2.1 = .ok k →
          (∀ (j : Nat) e', i < j → ests[j]? = some e' → ¬ InRange e'.1 e'.2.1 g) → dot g = some (g, k) := by
  have hseg := (c61_arrows h).1
  unfold plotEstimates at h
  obtain ⟨ks, hks, h⟩ := Py.bind_ok' h
  simp only [Py.pure_eq] at h
  cases h
  have hf := mapM_ok_forall₂ hks
  simp only at hseg ⊢
  set segs := (ests.zip ks).map fun ek => ((ek.1.1, ek.1.2.1), ek.2) with hsegs
  refine ⟨fun g => if communitiesAt g segs ≠ 0 then some (g, communitiesAt g segs) else none, ?_, fun g => ⟨?_, ?_⟩⟩
  · have := known_forall₂ hf
    revert this
    generalize ((ests.zip ks).filterMap fun ek => ek.1.2.2.2.map fun g => (ek, g)) = l
    generalize withEstimate ests = l'
    intro hl
    induction hl with
    | nil => rfl
    | cons hx _ ih => rw [List.filterMap_cons, List.filterMap_cons, hx.2.1, ih]
  · intro hno
    simp only
    rw [communitiesAt_none, if_neg (by simp)]
    intro r hr
    obtain ⟨i, hi, rfl⟩ := List.getElem_of_mem hr
    have hi' : i < ests.length := by rw [hseg.length_eq]; exact hi
    have := (hseg.get hi' hi).1
    simp only [List.get_eq_getElem] at this
    rw [this]
    exact hno _ (List.getElem_mem hi')
  · intro i e k' hi hr hk' hlast
    simp only
    have hi' := (List.getElem?_eq_some_iff.mp hi).1
    have his : i < segs.length := by rw [← hseg.length_eq]; exact hi'
    have hg := hseg.get hi' his
    simp only [List.get_eq_getElem] at hg
    rw [(List.getElem?_eq_some_iff.mp hi).2] at hg
    have hkk : segs[i].2 = k' := by
      have := hg.2; rw [hk'] at this; exact (Except.ok.inj this).symm
    rw [communitiesAt_last (i := i) (r := segs[i]) (List.getElem?_eq_getElem his) (by rw [hg.1]; exact hr), hkk,
      if_pos (by have := numCommunities_pos hk'; omega)]
    intro j r' hj hr' hin
    have hjs := (List.getElem?_eq_some_iff.mp hr').1
    have hjl : j < ests.length := by rw [hseg.length_eq]; exact hjs
    have hg' := hseg.get hjl hjs
    simp only [List.get_eq_getElem] at hg'
    rw [(List.getElem?_eq_some_iff.mp hr').2] at hg'
    rw [hg'.1] at hin
    exact hlast j _ hj (List.getElem?_eq_getElem hjl) hin

end Estimates

/-! ## C66 -/

section Arrows
variable {C : Type} [LinearOrder C] {palette : Nat → Nat → C} {shuffle : List C → List C} {pick : Nat → Nat}
  {xlim ylim : ℝ × ℝ} {points flip : Bool} {domains : List EstimatedDomain} {plot : EstimatePlot C}

theorem npMean_fin {l : List ℝ} (h : l ≠ []) : npMean l = .fin (l.sum / l.length) := by
  unfold npMean npDiv
  rw [if_pos (by have := List.length_pos_iff.mpr h; positivity)]

theorem flClamp (a b c : ℝ) : flMin (.fin b) (flMax (.fin a) (.fin c)) = .fin (min b (max a c)) := by
  have h1 : flMax (.fin a) (.fin c) = .fin (max a c) := by
    unfold flMax
    simp only [Fl.lt, decide_eq_true_eq]
    split
    · rename_i h; rw [max_eq_right h.le]
    · rename_i h; rw [max_eq_left (by linarith)]
  rw [h1]
  unfold flMin
  simp only [Fl.lt, decide_eq_true_eq]
  split
  · rename_i h; rw [min_eq_right h.le]
  · rename_i h; rw [min_eq_left (by linarith)]

theorem estimateArrow_iff {xlim ylim : ℝ × ℝ} {poly : List (ℝ × ℝ)} (hne : poly ≠ []) (γ ω : Option (Fl ℝ)) (a : Arrow) :
    estimateArrow xlim ylim (flipAxes true poly) γ ω = some a ↔ ArrowOf xlim ylim poly γ ω a := by
  have h1 : npMean ((flipAxes true poly).map Prod.fst) = .fin ((poly.map Prod.snd).sum / poly.length) := by
    rw [npMean_fin (by simpa [flipAxes] using hne)]
    simp [flipAxes, Function.comp_def]
  have h2 : npMean ((flipAxes true poly).map Prod.snd) = .fin ((poly.map Prod.fst).sum / poly.length) := by
    rw [npMean_fin (by simpa [flipAxes] using hne)]
    simp [flipAxes, Function.comp_def]
  unfold estimateArrow ArrowOf
  simp only [h1, h2, flClamp]
  constructor
  · intro h
    split at h
    · rename_i γ' ω'
      split at h
      · cases h
      · rename_i hout
        split at h
        · rename_i hin
          have hγ : InRange ylim.1 ylim.2 γ' := by
            rw [← fl_le_le_iff]
            simp only [Bool.and_eq_true] at hin ⊢
            exact hin.1.1
          have hω : InRange xlim.1 xlim.2 ω' := by
            rw [← fl_le_le_iff]
            simp only [Bool.and_eq_true] at hin ⊢
            exact ⟨hin.1.2, hin.2⟩
          obtain ⟨g, rfl, hg⟩ := hγ
          obtain ⟨w, rfl, hw⟩ := hω
          simp only [Fl.lt, Bool.or_eq_true, decide_eq_true_eq, not_or, not_lt] at hout
          cases h
          exact ⟨g, w, rfl, rfl, hg, hw, hout, rfl, rfl⟩
        · cases h
    · cases h
  · rintro ⟨g, w, rfl, rfl, hg, hw, hout, ht, hh⟩
    simp only
    rw [if_neg (by simp only [Fl.lt, Bool.or_eq_true, decide_eq_true_eq, not_or, not_lt]; exact hout),
      if_pos (by simp only [Fl.le, Bool.and_eq_true, decide_eq_true_eq]; exact ⟨⟨hg, hw.1⟩, hw.2⟩)]
    obtain ⟨t, h⟩ := a
    simp only at ht hh
    rw [ht, hh]

/-- **C66.** `plot_2d_domains_with_estimates` draws, in the order of the domains, an arrow exactly for those whose
estimates are both given and inside the plotting window and whose centroid is horizontally at most 5% of the window's width
outside of it; the arrow leads from the centroid, moved to the edge of the window if outside, to the point
(omega estimate, gamma estimate).  The points are drawn iff asked for, and the domains are coloured as by
`plot_2d_domains` with swapped axes. -/
theorem c66_arrows (hpoly : ∀ d ∈ domains, d.1 ≠ [])
    (h : plotDomainsWithEstimates palette shuffle pick xlim ylim points flip domains = .ok plot) :
    (∃ arrow : EstimatedDomain → Option Arrow, plot.arrows = domains.filterMap arrow ∧
      ∀ d ∈ domains, ∀ a, arrow d = some a ↔ ArrowOf xlim ylim d.1 d.2.2.1 d.2.2.2 a) ∧
    plot.points = (if points then plot.arrows.map Arrow.head else []) ∧
    plotDomains palette shuffle pick true (domains.map fun d => (d.1, d.2.1)) = .ok plot.domains := by
  unfold plotDomainsWithEstimates at h
  split at h
  · obtain ⟨p, hp, h⟩ := Py.bind_ok' h
    cases h
    exact ⟨⟨_, rfl, fun d hd a => estimateArrow_iff (hpoly d hd) _ _ _⟩, rfl, hp⟩
  · cases h

/-- **C66.** Hence both ends of all arrows lie in the window, if its limits are in order. -/
theorem c66_inside_window (hpoly : ∀ d ∈ domains, d.1 ≠ []) (hx : xlim.1 ≤ xlim.2) (hy : ylim.1 ≤ ylim.2)
    (h : plotDomainsWithEstimates palette shuffle pick xlim ylim points flip domains = .ok plot) (a : Arrow)
    (ha : a ∈ plot.arrows) :
    InRange xlim.1 xlim.2 a.tail.1 ∧ InRange ylim.1 ylim.2 a.tail.2 ∧ InRange xlim.1 xlim.2 a.head.1 ∧
      InRange ylim.1 ylim.2 a.head.2 := by
  obtain ⟨⟨f, hf, hspec⟩, -, -⟩ := c66_arrows hpoly h
  rw [hf] at ha
  obtain ⟨d, hd, hda⟩ := List.mem_filterMap.mp ha
  obtain ⟨g, w, -, -, hg, hw, -, ht, hh⟩ := (hspec d hd a).mp hda
  rw [ht, hh]
  exact ⟨⟨_, rfl, le_min hx (le_max_left _ _), min_le_left _ _⟩, ⟨_, rfl, le_min hy (le_max_left _ _), min_le_left _ _⟩,
    ⟨_, rfl, hw⟩, ⟨_, rfl, hg⟩⟩

/-- **C66.** Without swapping the axes it raises `AssertionError`; with it, it returns exactly when `plot_2d_domains` does. -/
theorem c66_returns :
    plotDomainsWithEstimates palette shuffle pick xlim ylim points false domains = .error .assertionError ∧
    ((∃ plot, plotDomainsWithEstimates palette shuffle pick xlim ylim points true domains = .ok plot) ↔
      ∃ plot, plotDomains palette shuffle pick true (domains.map fun d => (d.1, d.2.1)) = .ok plot) := by
  refine ⟨rfl, ?_, ?_⟩
  · rintro ⟨plot, h⟩
    unfold plotDomainsWithEstimates at h
    obtain ⟨p, hp, h⟩ := Py.bind_ok' h
    exact ⟨p, hp⟩
  · rintro ⟨p, hp⟩
    unfold plotDomainsWithEstimates
    simp only [if_true]
    rw [hp]
    exact ⟨_, rfl⟩

/-- Two squares side by side in the `(gamma, omega)` plane; the first one's estimates lie in the second one. -/
noncomputable def twoSquares : List EstimatedDomain :=
  [([(0, 0), (1, 0), (1, 1), (0, 1)], [0, 0, 0], some (.fin (3 / 2)), some (.fin (1 / 2))),
   ([(1, 0), (2, 0), (2, 1), (1, 1)], [0, 0, 1], none, some (.fin 0))]

example : ArrowOf (0, 1) (0, 2) [(0, 0), (1, 0), (1, 1), (0, 1)] (some (.fin (3 / 2))) (some (.fin (1 / 2)))
    ⟨(.fin (1 / 2), .fin (1 / 2)), (.fin (1 / 2), .fin (3 / 2))⟩ := by
  refine ⟨3 / 2, 1 / 2, rfl, rfl, by norm_num, by norm_num, by norm_num, ?_, rfl⟩
  norm_num

example : ∃ plot, plotDomainsWithEstimates set1 List.reverse (fun i => i) (0, 1) (0, 2) true true twoSquares = .ok plot := by
  rw [c66_returns.2]
  refine c59_returns fun j e hj => ?_
  have hj2 : j < 2 := (List.getElem?_eq_some_iff.mp hj).1
  have hl : (twoSquares.map fun d => (d.1, d.2.1)).length = 2 := rfl
  rw [hl]
  calc _ ≤ (List.range j).length := List.length_filter_le _ _
    _ = j := List.length_range
    _ < 2 := hj2
    _ = _ := by decide

end Arrows

/-! ## C67 -/

section Values
variable {xlim ylim : ℝ × ℝ} {domains : List EstimatedDomain}

theorem vertexInWindow_iff (xlim ylim : ℝ × ℝ) (poly : List (ℝ × ℝ)) :
    vertexInWindow xlim ylim (flipAxes true poly) = true ↔ HasVertexIn xlim ylim poly := by
  unfold vertexInWindow flipAxes HasVertexIn
  simp only [if_true, List.any_map, List.any_eq_true, Function.comp_apply, decide_eq_true_eq]
  constructor
  · rintro ⟨x, hx, h1, h2, h3, h4⟩; exact ⟨x, hx, ⟨h3, h4⟩, h1, h2⟩
  · rintro ⟨x, hx, ⟨h3, h4⟩, h1, h2⟩; exact ⟨x, hx, h1, h2, h3, h4⟩

open Classical in
theorem visibleDomains_ok {X : Type} {value : List Int → Py X} {domains : List EstimatedDomain}
    {vis : List (List (ℝ × ℝ) × X)} (h : visibleDomains xlim ylim value domains = .ok vis) :
    List.Forall₂ (fun d (pv : List (ℝ × ℝ) × X) => pv.1 = d.1.map Prod.swap ∧ value d.2.1 = .ok pv.2)
      (domains.filter fun d => decide (HasVertexIn xlim ylim d.1)) vis := by
  induction domains generalizing vis with
  | nil => cases h; exact List.Forall₂.nil
  | cons d ds ih =>
    rw [visibleDomains] at h
    by_cases hv : HasVertexIn xlim ylim d.1
    · rw [if_pos ((vertexInWindow_iff _ _ _).mpr hv)] at h
      obtain ⟨x, hx, h⟩ := Py.bind_ok' h
      obtain ⟨rest, hrest, h⟩ := Py.bind_ok' h
      cases h
      rw [List.filter_cons_of_pos (by simpa using hv)]
      exact List.Forall₂.cons ⟨rfl, hx⟩ (ih hrest)
    · rw [if_neg (by rw [vertexInWindow_iff]; exact hv)] at h
      rw [List.filter_cons_of_neg (by simpa using hv)]
      exact ih h

open Classical in
theorem visible_polys {X : Type} {P : EstimatedDomain → X → Prop} {domains : List EstimatedDomain}
    {vis : List (List (ℝ × ℝ) × X)}
    (hf : List.Forall₂ (fun d (pv : List (ℝ × ℝ) × X) => pv.1 = d.1.map Prod.swap ∧ P d pv.2)
      (domains.filter fun d => decide (HasVertexIn xlim ylim d.1)) vis) :
    vis.map Prod.fst = (domains.filter fun d => decide (HasVertexIn xlim ylim d.1)).map (fun d => d.1.map Prod.swap) := by
  generalize (domains.filter fun d => decide (HasVertexIn xlim ylim d.1)) = l at hf
  induction hf with
  | nil => rfl
  | cons hx _ ih => rw [List.map_cons, List.map_cons, hx.1, ih]

theorem visibleDomains_returns {X : Type} {value : List Int → Py X} {domains : List EstimatedDomain}
    (h : ∀ d ∈ domains, HasVertexIn xlim ylim d.1 → ∃ x, value d.2.1 = .ok x) :
    ∃ vis, visibleDomains xlim ylim value domains = .ok vis := by
  induction domains with
  | nil => exact ⟨[], rfl⟩
  | cons d ds ih =>
    obtain ⟨vis, hvis⟩ := ih fun d hd => h d (List.mem_cons_of_mem _ hd)
    rw [visibleDomains]
    by_cases hv : HasVertexIn xlim ylim d.1
    · obtain ⟨x, hx⟩ := h d (by simp) hv
      rw [if_pos ((vertexInWindow_iff _ _ _).mpr hv), hx, Py.ok_bind, hvis]
      exact ⟨_, rfl⟩
    · rw [if_neg (by rw [vertexInWindow_iff]; exact hv)]
      exact ⟨vis, hvis⟩

open Classical in
/-- **C67 (domains with a vertex in the window).** `plot_2d_domains_with_num_communities` draws, in order, exactly the
domains that have a vertex in the window, each coloured by its number of communities, cut off at `K_max` if given; without
`K_max` the colour bar ends at the largest number drawn.  Missing from the full claim: domains that meet the window without
having a vertex in it, which are not drawn (`c67_covering_domain_missing`). -/
theorem c67_num_communities_partial {kMax : Option Nat} {flip : Bool} {polys : List (List (ℝ × ℝ))} {values : List Nat}
    {top : Nat} (h : plotNumCommunities xlim ylim flip kMax domains = .ok (polys, values, top)) :
    polys = (domains.filter fun d => decide (HasVertexIn xlim ylim d.1)).map (fun d => d.1.map Prod.swap) ∧
    List.Forall₂ (fun d K => ∃ k, numCommunities d.2.1 = .ok k ∧ (∀ M, kMax = some M → K = min k M) ∧ (kMax = none → K = k))
      (domains.filter fun d => decide (HasVertexIn xlim ylim d.1)) values ∧
    (∀ K ∈ values, K ≤ top) ∧ (∀ M, kMax = some M → top = M) ∧ (kMax = none → top ∈ values) := by
  unfold plotNumCommunities at h
  split at h
  · obtain ⟨vis, hvis, h⟩ := Py.bind_ok' h
    have hf := visibleDomains_ok hvis
    have hpol := visible_polys (P := fun d k => numCommunities d.2.1 = .ok k) hf
    cases kMax with
    | some M =>
      cases h
      refine ⟨hpol, ?_, ?_, by simp, by simp⟩
      · rw [List.map_map, List.forall₂_map_right_iff]
        exact hf.imp fun d pv hd => ⟨pv.2, hd.2, by simp, by simp⟩
      · intro K hK
        obtain ⟨k, -, rfl⟩ := List.mem_map.mp hK
        exact min_le_right _ _
    | none =>
      simp only at h
      split at h
      · rename_i K hK
        cases h
        refine ⟨hpol, ?_, (List.max?_eq_some_iff.mp hK).2, by simp, fun _ => (List.max?_eq_some_iff.mp hK).1⟩
        rw [List.forall₂_map_right_iff]
        exact hf.imp fun d pv hd => ⟨pv.2, hd.2, by simp, by simp⟩
      · cases h
  · cases h

open Classical in
/-- **C67 (domains with a vertex in the window).** `plot_2d_domains_with_ami` draws the same domains, each coloured by the
score of its partition against the ground truth, in this order of arguments; one more value 1 stretches the colour scale. -/
theorem c67_ami_partial {ami : List Int → List Int → Py ℝ} {truth : List Int} {flip : Bool}
    {polys : List (List (ℝ × ℝ))} {values : List ℝ}
    (h : plotAmi ami truth xlim ylim flip domains = .ok (polys, values)) :
    polys = (domains.filter fun d => decide (HasVertexIn xlim ylim d.1)).map (fun d => d.1.map Prod.swap) ∧
    ∃ scores, values = scores ++ [1] ∧ List.Forall₂ (fun d s => ami d.2.1 truth = .ok s)
      (domains.filter fun d => decide (HasVertexIn xlim ylim d.1)) scores := by
  unfold plotAmi at h
  split at h
  · obtain ⟨vis, hvis, h⟩ := Py.bind_ok' h
    cases h
    have hf := visibleDomains_ok hvis
    refine ⟨visible_polys (P := fun d s => ami d.2.1 truth = .ok s) hf, _, rfl, ?_⟩
    rw [List.forall₂_map_right_iff]
    exact hf.imp fun d pv hd => hd.2
  · cases h

/-- **C67.** When they return: the memberships drawn must be countable (or scorable), and without `K_max` at least one domain
must have a vertex in the window, else `ValueError`.  Unswapped axes are refused. -/
theorem c67_returns (kMax : Option Nat) (ami : List Int → List Int → Py ℝ) (truth : List Int) :
    plotNumCommunities xlim ylim false kMax domains = .error .assertionError ∧
    plotAmi ami truth xlim ylim false domains = .error .assertionError ∧
    ((∀ d ∈ domains, HasVertexIn xlim ylim d.1 → ∃ k, numCommunities d.2.1 = .ok k) →
      (kMax ≠ none ∨ ∃ d ∈ domains, HasVertexIn xlim ylim d.1) →
      ∃ r, plotNumCommunities xlim ylim true kMax domains = .ok r) ∧
    ((∀ d ∈ domains, ¬ HasVertexIn xlim ylim d.1) →
      plotNumCommunities xlim ylim true none domains = .error (.valueError "max() arg is an empty sequence")) ∧
    ((∀ d ∈ domains, HasVertexIn xlim ylim d.1 → ∃ s, ami d.2.1 truth = .ok s) →
      ∃ r, plotAmi ami truth xlim ylim true domains = .ok r) := by
  refine ⟨rfl, rfl, ?_, ?_, ?_⟩
  · intro h hk
    obtain ⟨vis, hvis⟩ := visibleDomains_returns h
    unfold plotNumCommunities
    rw [if_pos rfl, hvis, Py.ok_bind]
    cases kMax with
    | some M => exact ⟨_, rfl⟩
    | none =>
      simp only
      obtain ⟨d, hd, hv⟩ := hk.resolve_left (by simp)
      have hf := visibleDomains_ok hvis
      cases hm : (vis.map Prod.snd).max? with
      | some K => exact ⟨_, rfl⟩
      | none =>
        exfalso
        rw [List.max?_eq_none_iff, List.map_eq_nil_iff] at hm
        subst hm
        have h0 := List.forall₂_nil_right_iff.mp hf
        have : d ∈ domains.filter fun d => @decide (HasVertexIn xlim ylim d.1) (Classical.propDecidable _) :=
          List.mem_filter.mpr ⟨hd, by simpa using hv⟩
        rw [h0] at this
        cases this
  · intro h
    obtain ⟨vis, hvis⟩ := visibleDomains_returns (value := numCommunities) (fun d hd hv => absurd hv (h d hd))
    unfold plotNumCommunities
    rw [if_pos rfl, hvis, Py.ok_bind]
    have hf := visibleDomains_ok hvis
    rw [List.filter_eq_nil_iff.mpr (fun d hd => by simpa using h d hd)] at hf
    rw [List.forall₂_nil_left_iff.mp hf]
    rfl
  · intro h
    obtain ⟨vis, hvis⟩ := visibleDomains_returns (value := fun c => ami c truth) h
    unfold plotAmi
    rw [if_pos rfl, hvis, Py.ok_bind]
    exact ⟨_, rfl⟩

/-- **C67.** The full claim – whatever meets the window is drawn – is false: zooming into the inside of a domain draws
nothing. -/
theorem c67_covering_domain_missing :
    ¬ ∀ (xlim ylim : ℝ × ℝ) (domains : List EstimatedDomain) (K : Nat) polys values top,
      plotNumCommunities xlim ylim true (some K) domains = .ok (polys, values, top) →
      ∀ d ∈ domains, (∃ q ∈ convexHull ℝ {q | q ∈ d.1}, (ylim.1 ≤ q.1 ∧ q.1 ≤ ylim.2) ∧ xlim.1 ≤ q.2 ∧ q.2 ≤ xlim.2) →
        d.1.map Prod.swap ∈ polys := by
  intro h
  have hno : ∀ d ∈ twoSquares, ¬ HasVertexIn (1 / 4, 3 / 4) (1 / 4, 3 / 4) d.1 := by
    intro d hd
    simp only [twoSquares, List.mem_cons, List.not_mem_nil, or_false] at hd
    rintro ⟨q, hq, h1, h2⟩
    rcases hd with rfl | rfl <;> simp only [List.mem_cons, List.not_mem_nil, or_false] at hq <;>
      rcases hq with rfl | rfl | rfl | rfl <;> norm_num at h1
  obtain ⟨⟨polys, values, top⟩, hr⟩ := (c67_returns (some 5) (fun _ _ => .ok 0) []).2.2.1
    (fun d hd hv => absurd hv (hno d hd)) (Or.inl (by simp))
  have hp := (c67_num_communities_partial hr).1
  rw [List.filter_eq_nil_iff.mpr (fun d hd => by simpa using hno d hd)] at hp
  have := h _ _ _ _ _ _ _ hr ([(0, 0), (1, 0), (1, 1), (0, 1)], [0, 0, 0], some (.fin (3 / 2)), some (.fin (1 / 2)))
    (by simp [twoSquares]) ⟨(1 / 2, 1 / 2), ?_, by norm_num, by norm_num, by norm_num⟩
  · rw [hp] at this; simp at this
  · have hm := (convex_convexHull ℝ {q : ℝ × ℝ | q ∈ [((0 : ℝ), (0 : ℝ)), (1, 0), (1, 1), (0, 1)]})
      (subset_convexHull ℝ _ (show ((0 : ℝ), (0 : ℝ)) ∈ _ by simp))
      (subset_convexHull ℝ _ (show ((1 : ℝ), (1 : ℝ)) ∈ _ by simp))
      (show (0 : ℝ) ≤ 1 / 2 by norm_num) (show (0 : ℝ) ≤ 1 / 2 by norm_num) (by norm_num)
    convert hm using 1
    norm_num

example : ∃ r, plotNumCommunities (0, 1) (0, 2) true none twoSquares = .ok r := by
  refine (c67_returns none (fun _ _ => .ok 0) []).2.2.1 ?_ (Or.inr ⟨_, List.mem_cons_self, (0, 0), by simp, by norm_num,
    by norm_num⟩)
  intro d hd _
  simp only [twoSquares, List.mem_cons, List.not_mem_nil, or_false] at hd
  rcases hd with rfl | rfl
  · exact ⟨1, by decide⟩
  · exact ⟨2, by decide⟩

end Values
end Verif.Props
