import Verif.Proofs.History
import Verif.Props.Champ3D

/-!
# Properties C48 (independence of earlier calls), C53 and C54 (splitting into layers)
-/

namespace Verif.Props
open Verif Verif.Spec

/-! ## C53 -/

section Split
variable {F : Type}

theorem sum_range_single (n t k : Nat) : ((List.range n).map fun t' => if t = t' then k else 0).sum = if t < n then k else 0 := by
  induction n with
  | zero => simp
  | succ n ih =>
    rw [List.range_succ, List.map_append, List.sum_append, ih]
    simp only [List.map_cons, List.map_nil, List.sum_cons, List.sum_nil]
    split <;> split <;> split <;> omega

/-- **C53.** For every graph with weights and every layer vector with one entry per vertex, the split is one graph per layer
`0..max`, each on all vertices and with the same directedness; the weighted edges of layer `t`'s graph are, in order, the
edges whose source is in layer `t`; and together the layers contain every weighted edge exactly once. -/
theorem c53_split {G : Graph F} (hG : G.WF) {ws : List F} (hw : G.weight = some ws) {layers : List Nat}
    (hl : layers.length = G.vcount) {m : Nat} (hm : m ∈ layers) (hmax : ∀ l ∈ layers, l ≤ m) :
    ∃ Gs, splitLayers G.vcount G.edges G.weight G.directed layers = .ok Gs ∧ Gs.length = m + 1 ∧
      (∀ t g, Gs[t]? = some g → g.vcount = G.vcount ∧ g.directed = G.directed ∧ g.WF ∧
        ∃ gw, g.weight = some gw ∧
          g.edges.zip gw = (G.edges.zip ws).filter fun e => decide (layers[e.1.1]? = some t)) ∧
      ((Gs.map fun g => g.edges.zip (g.weight.getD [])).flatten).Perm (G.edges.zip ws) := by
  have hT : countLayers layers = .ok (m + 1) := by
    unfold countLayers
    rw [List.max?_eq_some_iff.mpr ⟨hm, hmax⟩]
  have hzip : ∀ t, (layerGraph G ws layers t).edges.zip (((layerGraph G ws layers t).weight).getD []) =
      layerOf (G.edges.zip ws) layers t := by
    intro t
    simp only [layerGraph, Option.getD_some]
    exact (List.zip_of_prod rfl rfl).symm
  refine ⟨_, splitLayers_ok hG hw hl hT (fun l h => Nat.lt_succ_of_le (hmax l h)), by simp, ?_, ?_⟩
  · intro t g hg
    have ht : t < m + 1 := by have := (List.getElem?_eq_some_iff.mp hg).1; simpa using this
    simp only [List.getElem?_map, List.getElem?_range ht, Option.map_some, Option.some.injEq] at hg
    subst hg
    refine ⟨rfl, rfl, ⟨?_, ?_⟩, _, rfl, hzip t⟩
    · intro e he
      obtain ⟨x, hx, rfl⟩ := List.mem_map.mp he
      exact hG.1 x.1 (List.of_mem_zip (List.mem_of_mem_filter hx)).1
    · intro gw hgw
      obtain rfl := Option.some.inj hgw
      simp [layerGraph]
  · rw [List.map_map]
    have : ((fun g : Graph F => g.edges.zip (g.weight.getD [])) ∘ layerGraph G ws layers) =
        layerOf (G.edges.zip ws) layers := funext hzip
    rw [this]
    have hsrc : ∀ e ∈ G.edges.zip ws, ∃ t < m + 1, layers[e.1.1]? = some t := by
      intro e he
      have h1 := (hG.1 e.1 (List.of_mem_zip he).1).1
      rw [← hl] at h1
      exact ⟨layers[e.1.1], Nat.lt_succ_of_le (hmax _ (List.getElem_mem h1)), List.getElem?_eq_getElem h1⟩
    generalize G.edges.zip ws = es at hsrc
    clear this hzip hT
    classical
    rw [List.perm_iff_count]
    intro a
    rw [List.count_flatten, List.map_map]
    have hc : ∀ t, (List.count a ∘ layerOf es layers) t = if layers[a.1.1]? = some t then es.count a else 0 := by
      intro t
      simp only [Function.comp, layerOf]
      split
      · rename_i h; rw [List.count_filter (by simpa using h)]
      · rename_i h
        rw [List.count_eq_zero]
        intro hmem
        exact h (by simpa using (List.mem_filter.mp hmem).2)
    rw [List.map_congr_left (fun t _ => hc t)]
    by_cases ha : a ∈ es
    · obtain ⟨t, ht, hta⟩ := hsrc a ha
      simp only [hta, Option.some.injEq]
      rw [sum_range_single, if_pos ht]
    · rw [List.count_eq_zero.mpr ha]
      simp

/-- **C53 (short layer vector).** If some edge's source has no entry in the layer vector, the split raises. -/
theorem c53_short {G : Graph F} {ws : List F} (hw : G.weight = some ws) (hlen : ws.length = G.edges.length)
    {layers : List Nat} {e : Nat × Nat} (he : e ∈ G.edges) (hs : layers.length ≤ e.1) :
    ∃ err, splitLayers G.vcount G.edges G.weight G.directed layers = .error err := by
  unfold splitLayers
  cases countLayers layers with
  | error err => exact ⟨err, rfl⟩
  | ok T =>
    rw [Py.ok_bind]
    have : Graph.weightedEdges ⟨G.vcount, G.directed, G.edges, G.weight⟩ = .ok (G.edges.zip ws) := by
      unfold Graph.weightedEdges; simp only [hw]
    rw [this, Py.ok_bind]
    obtain ⟨x, hx, hxe⟩ : ∃ x ∈ G.edges.zip ws, x.1 = e := by
      have : e ∈ (G.edges.zip ws).map Prod.fst := by rw [List.map_fst_zip (by omega)]; exact he
      obtain ⟨x, h1, h2⟩ := List.mem_map.mp this
      exact ⟨x, h1, h2⟩
    generalize (List.replicate T [], List.replicate T []) = acc
    suffices h : ∀ es : List ((Nat × Nat) × F), x ∈ es → ∀ acc, ∃ err, es.foldlM (fun (acc : List (List (Nat × Nat)) × List (List F)) e => (do
      let l ← pyGet layers e.1.1
      let a ← pyAppendAt acc.1 l e.1
      let b ← pyAppendAt acc.2 l e.2
      return (a, b) : Py _)) acc = .error err by
      obtain ⟨err, h⟩ := h _ hx acc
      refine ⟨err, ?_⟩
      rw [h]; rfl
    intro es
    induction es with
    | nil => intro h; simp at h
    | cons y es ih =>
      intro hmem acc
      rw [List.foldlM_cons]
      rcases List.mem_cons.mp hmem with rfl | hmem
      · refine ⟨.indexError, ?_⟩
        have : pyGet layers x.1.1 = .error .indexError := by
          unfold pyGet
          rw [List.getElem?_eq_none (by rw [hxe]; exact hs)]
        rw [this]; rfl
      · generalize hst : (do
          let l ← pyGet layers y.1.1
          let a ← pyAppendAt acc.1 l y.1
          let b ← pyAppendAt acc.2 l y.2
          return (a, b) : Py _) = st
        cases st with
        | error err => exact ⟨err, rfl⟩
        | ok acc' => exact ih hmem acc'

example : ∃ Gs, splitLayers 4 [(0, 1), (2, 3), (1, 0), (3, 3)] (some [(5 : ℚ), 6, 7, 8]) false [1, 1, 0, 0] = .ok Gs ∧
    Gs.length = 2 := by
  obtain ⟨Gs, h1, h2, -⟩ := c53_split (G := ⟨4, false, [(0, 1), (2, 3), (1, 0), (3, 3)], some [(5 : ℚ), 6, 7, 8]⟩)
    ⟨by decide, by intro ws h; obtain rfl := Option.some.inj h; rfl⟩ rfl (layers := [1, 1, 0, 0]) rfl (m := 1) (by decide)
    (by decide)
  exact ⟨Gs, h1, h2⟩

end Split

/-! ## C54 -/

variable {env : LeidenEnv} {heap : Nat → Graph ℝ}

/-- **C54 (partial).** After any history of calls during which the graph objects are not modified (other than by the
library itself adding weights 1), a call returns the split of the graph as it is.  Missing: histories with in-place
modifications; the claim is false for those, see `c54_stale` and `c54_same_key`. -/
theorem c54_reflects_graph_partial (hheap : ∀ o, (heap o).WF ∧ SaneTest env.test (heap o)) {w : World}
    (hw : Reachable env heap w) (obj : Nat) (layers : List Nat) :
    let G := defaulted env.test (heap obj)
    (splitIntralayer w.cache obj G layers).2 = splitLayers G.vcount G.edges G.weight G.directed layers := by
  obtain ⟨ws, hws⟩ := defaulted_weight (hheap obj).2
  exact (splitIntralayer_inv (heap := fun o => defaulted env.test (heap o)) (obj := obj)
    (defaulted_wf (hheap obj).1) hws layers (reachable_inv hheap hw).1).2.1

/-- The cache after a history of split calls, each on the graph object `h.1` with the content `h.2.1` at that time. -/
def splitHistory (h : List (Nat × Graph ℝ × List Nat)) : LRU SplitKey (List (Graph ℝ)) :=
  h.foldl (fun c x => (splitIntralayer c x.1 x.2.1 x.2.2).1) emptySplitCache

/-- **C54 (exact behaviour, other key).** After any history of split calls with arbitrary in-place modifications in between,
if every earlier call was for another graph object, vertex or edge count, directedness or layer vector, the call returns
the split of the graph as it is now. -/
theorem c54_other_key_partial (h : List (Nat × Graph ℝ × List Nat)) (obj : Nat) (G : Graph ℝ) (layers : List Nat)
    (hkey : ∀ x ∈ h, splitKey x.1 x.2.1 x.2.2 ≠ splitKey obj G layers) :
    (splitIntralayer (splitHistory h) obj G layers).2 = splitLayers G.vcount G.edges G.weight G.directed layers := by
  have hent : ∀ e ∈ (splitHistory h).entries, e.1 ≠ splitKey obj G layers := by
    unfold splitHistory
    have h0 : ∀ e ∈ (emptySplitCache (F := ℝ)).entries, e.1 ≠ splitKey obj G layers := by
      simp [emptySplitCache, LRU.empty]
    generalize emptySplitCache (F := ℝ) = c at h0
    induction h generalizing c with
    | nil => exact h0
    | cons x h ih =>
      refine ih (fun y hy => hkey y (List.mem_cons_of_mem _ hy)) _ ?_
      have hx := hkey x (List.mem_cons_self ..)
      intro e he
      rcases LRU.call_entries he with h1 | h1
      · rw [h1]; exact hx
      · exact h0 e h1
  exact LRU.call_miss hent _

/-- **C54 (exact behaviour, same key).** If the preceding split call was for the same graph object with the same vertex and
edge count, directedness and layer vector, its result is returned again, whatever has happened to the graph's edges and
weights since. -/
theorem c54_same_key (h : List (Nat × Graph ℝ × List Nat)) (obj : Nat) (G G' : Graph ℝ) (layers : List Nat)
    (hv : G'.vcount = G.vcount) (he : G'.ecount = G.ecount) (hd : G'.directed = G.directed) {Gs : List (Graph ℝ)}
    (hprev : (splitIntralayer (splitHistory h) obj G layers).2 = .ok Gs) :
    (splitIntralayer (splitHistory (h ++ [(obj, G, layers)])) obj G' layers).2 = .ok Gs := by
  have hcap : (splitHistory h).cap = 1 := by
    unfold splitHistory
    have h0 : (emptySplitCache (F := ℝ)).cap = 1 := rfl
    generalize emptySplitCache (F := ℝ) = c at h0
    clear hprev
    induction h generalizing c with
    | nil => exact h0
    | cons x h ih =>
      refine ih _ ?_
      exact (LRU.call_cap _ _ _).trans h0
  have hk : splitKey obj G' layers = splitKey obj G layers := by unfold splitKey; rw [hv, he, hd]
  have : splitHistory (h ++ [(obj, G, layers)]) = (splitIntralayer (splitHistory h) obj G layers).1 := by
    unfold splitHistory; rw [List.foldl_append]; rfl
  rw [this]
  unfold splitIntralayer at hprev ⊢
  rw [hk]
  exact (LRU.call_hit (by omega) hprev _).1

/-- **C54 is false in general.** Changing an edge's weight between two calls: the second call returns the old weight. -/
theorem c54_stale : ∃ (obj : Nat) (G G' : Graph ℝ) (layers : List Nat), G.WF ∧ G'.WF ∧
    (splitIntralayer (splitHistory [(obj, G, layers)]) obj G' layers).2 ≠
      splitLayers G'.vcount G'.edges G'.weight G'.directed layers := by
  have hwf : ∀ x : ℝ, (⟨2, false, [(0, 1)], some [x]⟩ : Graph ℝ).WF := fun x =>
    ⟨by simp, by intro ws h; obtain rfl := Option.some.inj h; rfl⟩
  have hs : ∀ x : ℝ, splitLayers 2 [(0, 1)] (some [x]) false [0, 0] = .ok [⟨2, false, [(0, 1)], some [x]⟩] := by
    intro x
    have := splitLayers_ok (hwf x) rfl (layers := [0, 0]) rfl (T := 1) rfl (by decide)
    rw [this]
    simp [layerGraph, layerOf, List.range_succ]
  refine ⟨0, ⟨2, false, [(0, 1)], some [1]⟩, ⟨2, false, [(0, 1)], some [2]⟩, [0, 0], hwf 1, hwf 2, ?_⟩
  have h0 : (splitIntralayer (splitHistory []) 0 ⟨2, false, [(0, 1)], some [(1 : ℝ)]⟩ [0, 0]).2 =
      .ok [⟨2, false, [(0, 1)], some [1]⟩] := by
    rw [c54_other_key_partial [] _ _ _ (by simp)]; exact hs 1
  have h1 := c54_same_key [] 0 ⟨2, false, [(0, 1)], some [(1 : ℝ)]⟩ ⟨2, false, [(0, 1)], some [2]⟩ [0, 0] rfl rfl rfl h0
  simp only [List.nil_append] at h1
  rw [h1, hs 2]
  simp

/-! ## C48 -/

variable {obj : Nat} {Gi Gx : Graph ℝ} {layers : List Nat} {model : String}

theorem iterateMulti_same (hp : ProducesPartitions env) {T : Nat} {ws : List ℝ}
    (h : Admissible env Gi Gx layers model T ws) (γ ω γtol ωtol ωmax : ℝ) {n : Nat} (hn : 0 < n) (verbose verbose' : Bool)
    {w w' : World} (hcalls : w.calls = w'.calls) (hcap : 0 < w.cache.cap) (hcap' : 0 < w'.cache.cap)
    (hsplit : (splitIntralayer w.cache obj (defaulted env.test Gi) layers).2 =
      (splitIntralayer w'.cache obj (defaulted env.test Gi) layers).2) :
    (iterateMulti env obj Gi Gx layers γ ω γtol ωtol ωmax n model verbose w).1 =
      (iterateMulti env obj Gi Gx layers γ ω γtol ωtol ωmax n model verbose' w').1 ∧
    (iterateMulti env obj Gi Gx layers γ ω γtol ωtol ωmax n model verbose w).2.calls =
      (iterateMulti env obj Gi Gx layers γ ω γtol ωtol ωmax n model verbose' w').2.calls := by
  obtain ⟨r, Gs, vs, k, h1, h2, h3, h4, h5⟩ := iterateMulti_run (obj := obj) hp h γ ω γtol ωtol ωmax hn w hcap
  obtain ⟨r', Gs', vs', k', h1', h2', h3', h4', h5'⟩ := iterateMulti_run (obj := obj) hp h γ ω γtol ωtol ωmax hn w' hcap'
  rw [h5, h5']
  have : Gs = Gs' := by
    unfold LayerGraphs at h1 h1'
    rw [hsplit, h1'] at h1
    exact (Except.ok.inj h1).symm
  subst this
  rw [hcalls] at h3
  obtain ⟨hr, rfl⟩ := iteration_unique h3 h3'
  refine ⟨?_, by omega⟩
  rcases r with ⟨_ | ⟨a, b, c, d⟩, ww⟩ <;> rcases r' with ⟨_ | ⟨a', b', c', d'⟩, ww'⟩
  · simp only [Except.map, Except.error.injEq] at hr; rw [hr]
  · simp [Except.map] at hr
  · simp [Except.map] at hr
  · simp only [Except.map, Except.ok.injEq, Prod.mk.injEq, Option.some.injEq] at hr
    obtain ⟨⟨rfl, rfl⟩, rfl⟩ := hr
    have e := (h4 _ rfl).1
    have e' := (h4' _ rfl).1
    simp only at e e'
    rw [e, e']

/-- **C48.** For `max_iter ≥ 1`, every process reached by any history of calls on unmodified graphs, and every input: the
outcome (result or exception), its effect on the graphs and the number of optimisations are those of the same call in a
process that made no call before and whose optimiser behaves alike from here on. -/
theorem c48_independent_of_history (hp : ProducesPartitions env)
    (hheap : ∀ o, (heap o).WF ∧ SaneTest env.test (heap o)) {w : World} (hw : Reachable env heap w)
    (hobj : defaulted env.test Gi = defaulted env.test (heap obj)) (hi : Gi.WF) (hx : Gx.WF)
    (hs : SaneTest env.test Gi) (γ ω γtol ωtol ωmax : ℝ) {n : Nat} (hn : 0 < n) (verbose : Bool) :
    let w₀ := { World.fresh with calls := w.calls }
    (iterateMulti env obj Gi Gx layers γ ω γtol ωtol ωmax n model verbose w).1 =
      (iterateMulti env obj Gi Gx layers γ ω γtol ωtol ωmax n model verbose w₀).1 ∧
    (iterateMulti env obj Gi Gx layers γ ω γtol ωtol ωmax n model verbose w).2.calls =
      (iterateMulti env obj Gi Gx layers γ ω γtol ωtol ωmax n model verbose w₀).2.calls := by
  intro w₀
  have hw0 : Reachable env heap w₀ := by
    have := Reachable.optimise (env := env) (heap := heap) w.calls .fresh
    have e : w₀ = { World.fresh with calls := World.fresh.calls + w.calls } := by
      simp [w₀, World.fresh]
    rw [e]; exact this
  by_cases hm : ¬ (model = "temporal" ∨ model = "multilevel" ∨ model = "multiplex")
  · cases hprep : prepareMultilayer (defaulted env.test Gi) (defaulted env.test Gx) layers model with
    | error e =>
      rw [c47_malformed γ ω γtol ωtol ωmax n verbose w hprep, c47_malformed γ ω γtol ωtol ωmax n verbose w₀ hprep]
      exact ⟨rfl, rfl⟩
    | ok p =>
      obtain ⟨T, mt, N, Nt⟩ := p
      have hrun := c47_unknown_model_error (obj := obj) hm hprep γ ω γtol ωtol ωmax n verbose
      rw [hrun w, hrun w₀]
      exact ⟨rfl, rfl⟩
  · rw [not_not] at hm
    cases hprep : prepareMultilayer (defaulted env.test Gi) (defaulted env.test Gx) layers model with
    | error e =>
      rw [c47_malformed γ ω γtol ωtol ωmax n verbose w hprep, c47_malformed γ ω γtol ωtol ωmax n verbose w₀ hprep]
      exact ⟨rfl, rfl⟩
    | ok p =>
      obtain ⟨ws, hws⟩ := defaulted_weight hs
      have hne : layers ≠ [] := by
        rintro rfl
        unfold prepareMultilayer countLayers at hprep
        simp only [List.max?_nil] at hprep
        cases hprep
      obtain ⟨T, -, hb, ht, -⟩ := countLayers_ok hne
      have hacc := (c49_accepts_iff (defaulted_wf (test := env.test) hi) (defaulted env.test Gx) model hws ht hb).1.mp
        ⟨p, hprep⟩
      have hadm : Admissible env Gi Gx layers model T ws := ⟨hi, hx, hs, hws, ht, hb, hacc, hm⟩
      have c1 := (reachable_inv hheap hw).2
      have c2 := (reachable_inv hheap hw0).2
      refine iterateMulti_same hp hadm γ ω γtol ωtol ωmax hn verbose verbose rfl (by omega) (by omega) ?_
      rw [hobj, c54_reflects_graph_partial hheap hw, c54_reflects_graph_partial hheap hw0]

/-- **C48 (no iterations).** With `max_iter = 0` an accepted call does depend on earlier calls: silently it returns the
unchanged parameters together with whatever partition the process found last (`NameError` if none), and with `verbose` it
raises `TypeError`. -/
theorem c48_zero_iterations {T : Nat} {ws : List ℝ} (h : Admissible env Gi Gx layers model T ws)
    (γ ω γtol ωtol ωmax : ℝ) (w : World) :
    iterateMulti env obj Gi Gx layers γ ω γtol ωtol ωmax 0 model false w =
      (match w.parts with
       | some c => .ok (.fin γ, ω, c, defaulted env.test Gi, defaulted env.test Gx)
       | none => .error .nameError, w) ∧
    iterateMulti env obj Gi Gx layers γ ω γtol ωtol ωmax 0 model true w = (.error .typeError, w) := by
  obtain ⟨mt, N, Nt, hprep⟩ := h.prepare
  obtain ⟨f, hf⟩ := h.omega ωmax
  constructor
  · unfold iterateMulti
    rw [ensureWeight_ecount, Prog.lift_ok, ensureWeight_ecount, Prog.lift_ok, hprep, Prog.lift_ok]
    simp only
    rw [hf, Prog.lift_ok, Prog.bind_eq]
    simp only [forRange, Prog.pure_eq]
    rw [if_neg (by simp), Prog.bind_eq]
    unfold Prog.getParts
    cases w.parts <;> rfl
  · unfold iterateMulti
    rw [ensureWeight_ecount, Prog.lift_ok, ensureWeight_ecount, Prog.lift_ok, hprep, Prog.lift_ok]
    simp only
    rw [hf, Prog.lift_ok, Prog.bind_eq]
    simp only [forRange, Prog.pure_eq]
    rw [if_pos (by simp)]
    rfl

/-! ### Concrete instances -/

/-- An environment whose multiplex optimiser always finds the same two communities in networks with six vertices. -/
noncomputable def copiesEnv : LeidenEnv where
  test := fun _ => false
  findPartition := fun _ _ _ => .error .keyError
  optimiseMultiplex := fun _ parts _ =>
    open Classical in if ∀ G γ, (VertexPartition.rb G γ ∈ parts ∨ VertexPartition.cpm G γ ∈ parts) → G.vcount = 6
      then .ok [0, 0, 1, 0, 0, 1] else .error .keyError
  spinglass := fun _ _ _ => .error .keyError
  fsolve := fun _ x => x
  fmt := fun _ => "x"

theorem copiesEnv_produces : ProducesPartitions copiesEnv := by
  refine ⟨fun _ _ _ _ h => (by cases h), ?_⟩
  intro i parts ws c h G γ hG
  unfold copiesEnv at h
  simp only at h
  split at h
  · rename_i h6
    obtain rfl := Except.ok.inj h
    rw [h6 G γ hG]; rfl
  · cases h

theorem copies_admissible : Admissible copiesEnv gIntraR gInterR [0, 0, 0, 1, 1, 1] "temporal" 2 [1, 1, 1, 1] where
  intra := gIntraR_multilayer.intra
  inter := gIntraR_multilayer.inter
  sane := by intro h; cases h
  weights := rfl
  top := by decide
  below := by decide
  known := Or.inl rfl
  accepted :=
    { layers := le_refl _
      directed := rfl
      sameSize := rfl
      vector := rfl
      weights := by
        intro t ht
        have : t = 0 ∨ t = 1 := by omega
        rcases this with rfl | rfl <;>
          simp [defaulted, copiesEnv, gIntraR, layerOf, wTotal]
      noCross := by decide
      temporal := by intro _; decide
      multilevel := by intro h; simp at h
      multiplex := by intro h; simp at h }

theorem copies_reestimate (π : Fl ℝ × ℝ) : ∃ g o, reestimateMulti copiesEnv (defaulted copiesEnv.test gIntraR)
    (defaulted copiesEnv.test gInterR) [0, 0, 0, 1, 1, 1] "temporal" 1000 2 π [0, 0, 1, 0, 0, 1] = .ok (.fin g, o) := by
  have h1 : estimateMultilayerSBM copiesEnv.fsolve (defaulted copiesEnv.test gIntraR) (defaulted copiesEnv.test gInterR)
      [0, 0, 0, 1, 1, 1] [0, 0, 1, 0, 0, 1] "temporal" none none none none = .ok (4 / 5, 4 / 3, 1, 2) := by
    have e : estimateMultilayerSBM copiesEnv.fsolve (defaulted copiesEnv.test gIntraR) (defaulted copiesEnv.test gInterR)
        [0, 0, 0, 1, 1, 1] [0, 0, 1, 0, 0, 1] "temporal" none none none none =
      estimateMultilayerSBM copiesEnv.fsolve (defaulted copiesEnv.test gIntraR) (defaulted copiesEnv.test gInterR)
        [0, 0, 0, 1, 1, 1] [0, 0, 1, 0, 0, 1] "temporal" none (some 2) none none := rfl
    rw [e, estimateMultilayerSBM_eq copiesEnv.fsolve (defaulted_wf gIntraR_multilayer.intra) rfl rfl
      (ws := [1, 1, 1, 1]) rfl "temporal" (T := 2) (by intro l hl; revert l; decide) (by decide)]
    have hth : thetas 2 (layerM ((defaulted copiesEnv.test gIntraR).edges.zip [1, 1, 1, 1]) [0, 0, 0, 1, 1, 1])
        (layerMIn ((defaulted copiesEnv.test gIntraR).edges.zip [1, 1, 1, 1]) [0, 0, 0, 1, 1, 1] [0, 0, 1, 0, 0, 1])
        (layerSq ((defaulted copiesEnv.test gIntraR).edges.zip [1, 1, 1, 1]) [0, 0, 0, 1, 1, 1] [0, 0, 1, 0, 0, 1]) =
        .ok ((4 / 5 : ℝ), 4 / 3) := by
      have m0 : ∀ t < 2, layerM ((defaulted copiesEnv.test gIntraR).edges.zip [1, 1, 1, 1]) [0, 0, 0, 1, 1, 1] t = (2 : ℝ) := by
        intro t ht
        have : t = 0 ∨ t = 1 := by omega
        rcases this with rfl | rfl <;> norm_num [layerM, defaulted, copiesEnv, gIntraR, layerOf, wTotal]
      have i0 : ∀ t < 2, layerMIn ((defaulted copiesEnv.test gIntraR).edges.zip [1, 1, 1, 1]) [0, 0, 0, 1, 1, 1] [0, 0, 1, 0, 0, 1] t = (1 : ℝ) := by
        intro t ht
        have : t = 0 ∨ t = 1 := by omega
        rcases this with rfl | rfl <;> norm_num [layerMIn, defaulted, copiesEnv, gIntraR, layerOf, wInside]
      have s0 : ∀ t < 2, layerSq ((defaulted copiesEnv.test gIntraR).edges.zip [1, 1, 1, 1]) [0, 0, 0, 1, 1, 1] [0, 0, 1, 0, 0, 1] t = (10 : ℝ) := by
        intro t ht
        have : t = 0 ∨ t = 1 := by omega
        rcases this with rfl | rfl <;> norm_num [layerSq, defaulted, copiesEnv, gIntraR, layerOf, strengthSq, wStrength, partLen, Finset.sum_range_succ]
      unfold thetas
      simp only [Finset.sum_range_succ, Finset.sum_range_zero, m0 0 (by omega), m0 1 (by omega), i0 0 (by omega), i0 1 (by omega), s0 0 (by omega), s0 1 (by omega)]
      rw [if_neg, if_neg (by norm_num), if_neg (by norm_num)]
      · norm_num
      · rintro ⟨t, ht, h⟩
        rw [m0 t ht] at h
        norm_num at h
    rw [hth, Py.ok_bind]
    have hp : ordinalPersistence (F := ℝ) (defaulted copiesEnv.test gInterR) [0, 0, 1, 0, 0, 1] 3 2 = .ok 1 := by
      have : insideEdges (defaulted copiesEnv.test gInterR) [0, 0, 1, 0, 0, 1] = .ok 3 := rfl
      unfold ordinalPersistence
      rw [this, Py.ok_bind]
      unfold pyDiv
      norm_num
    have hf : persistenceFunctionFromModel "temporal" (defaulted copiesEnv.test gInterR) (some [0, 0, 0, 1, 1, 1])
      (some 3) (some 2) (some ((List.range 2).map fun t => [0, 0, 0, 1, 1, 1].count t)) =
        .ok fun c => ordinalPersistence (F := ℝ) (defaulted copiesEnv.test gInterR) c 3 2 := rfl
    simp only
    rw [show (defaulted copiesEnv.test gIntraR).vcount / 2 = 3 from rfl, hf, Py.ok_bind]
    simp only
    rw [hp, Py.ok_bind]
    have hK : partLen [0, 0, 1, 0, 0, 1] = 2 := by decide
    rw [if_neg (by decide), hK]
    simp [temporalP]
    rfl
  obtain ⟨g, hg, -⟩ := c26_logarithmic_mean (a := 4 / 5) (b := 4 / 3) (by norm_num) (by norm_num) (by norm_num)
  refine ⟨g, 1000, ?_⟩
  unfold reestimateMulti
  rw [h1, Py.ok_bind]
  simp only
  rw [if_neg (by norm_num), hg]
  simp only
  unfold omegaFunctionFromModel
  rw [if_neg (by decide), if_pos (by simp), Py.ok_bind]
  simp [temporalOmega, Py.pure_eq, Py.ok_bind]

theorem copies_maximise {Gs : List (Graph ℝ)}
    (h : LayerGraphs World.fresh.cache 0 (defaulted copiesEnv.test gIntraR) [0, 0, 0, 1, 1, 1] Gs) (i : Nat)
    (π : Fl ℝ × ℝ) : multiMaximiser copiesEnv Gs (defaulted copiesEnv.test gInterR) i π = .ok [0, 0, 1, 0, 0, 1] := by
  unfold LayerGraphs splitIntralayer at h
  rw [copies_admissible.split] at h
  obtain rfl := Except.ok.inj (h.symm.trans (LRU.call_miss (by simp [World.fresh, emptySplitCache, LRU.empty]) _))
  unfold multiMaximiser copiesEnv
  simp only
  rw [if_pos]
  rintro G γ (hG | hG)
  · simp only [multiplexProblem, List.map_map, List.mem_append, List.mem_map, List.mem_range, List.mem_singleton] at hG
    rcases hG with ⟨t, -, ht⟩ | hG
    · injection ht with h1 h2; rw [← h1]; rfl
    · cases hG
  · simp only [multiplexProblem, List.map_map, List.mem_append, List.mem_map, List.mem_range, List.mem_singleton] at hG
    rcases hG with ⟨t, -, ht⟩ | hG
    · cases ht
    · injection hG with h1 h2; rw [h1]; rfl

/-- The multilayer iteration returns here: the hypotheses of `c47_returns_estimates_of_partition` are met. -/
example : ∃ γ' ω' G', (iterateMulti copiesEnv 0 gIntraR gInterR [0, 0, 0, 1, 1, 1] 1 1 (1 / 100) (1 / 100) 1000 25
    "temporal" false World.fresh).1 = .ok (γ', ω', [0, 0, 1, 0, 0, 1], G') := by
  obtain ⟨Gs, vs, k, h1, h2, h3, h4, h5⟩ := c47_iteration (obj := 0) copiesEnv_produces copies_admissible 1 1 (1 / 100)
    (1 / 100) 1000 (n := 25) (by norm_num) false World.fresh (by decide)
  generalize (iterateMulti copiesEnv 0 gIntraR gInterR [0, 0, 0, 1, 1, 1] 1 1 (1 / 100) (1 / 100) 1000 25
    "temporal" false World.fresh).1 = r at h4 h5 ⊢
  have hm := copies_maximise h1
  have hc : ∀ v, Visits (fun i => multiMaximiser copiesEnv Gs (defaulted copiesEnv.test gInterR) (World.fresh.calls + i))
      (reestimateMulti copiesEnv (defaulted copiesEnv.test gIntraR) (defaulted copiesEnv.test gInterR) [0, 0, 0, 1, 1, 1]
        "temporal" 1000 2) (WithinBoth (1 / 100) (1 / 100)) (.fin 1, 1) vs → vs.getLast? = some v →
      v.2 = [0, 0, 1, 0, 0, 1] := by
    intro v hv hlast
    rw [List.getLast?_eq_getElem?] at hlast
    have := hv.found _ v hlast
    simp only [hm] at this
    exact (Except.ok.inj this).symm
  rcases r with e | ⟨γ', ω', c, G'⟩
  · exfalso
    obtain ⟨hv, ⟨-, -, v, hlast, hu⟩ | ⟨-, -, π, hmax, -⟩⟩ := h4
    · obtain ⟨g, o, hgo⟩ := copies_reestimate v.1
      rw [hc v hv hlast, hgo] at hu
      cases hu
    · simp only [hm] at hmax; cases hmax
  · obtain ⟨-, -, hv, π', hlast, -⟩ := h4
    have := hc _ hv hlast
    simp only at this
    exact ⟨γ', ω', G', by rw [this]⟩

/-- … and with `max_iter = 0` the outcome depends on the history. -/
example : (iterateMulti copiesEnv 0 gIntraR gInterR [0, 0, 0, 1, 1, 1] 1 1 1 1 1000 0 "temporal" false
      World.fresh).1 = .error .nameError ∧
    (iterateMulti copiesEnv 0 gIntraR gInterR [0, 0, 0, 1, 1, 1] 1 1 1 1 1000 0 "temporal" false
      { World.fresh with parts := some [3] }).1 =
        .ok (.fin 1, 1, [3], defaulted copiesEnv.test gIntraR, defaulted copiesEnv.test gInterR) := by
  rw [(c48_zero_iterations copies_admissible 1 1 1 1 1000 World.fresh).1,
    (c48_zero_iterations copies_admissible 1 1 1 1 1000 { World.fresh with parts := some [3] }).1]
  exact ⟨rfl, rfl⟩

end Verif.Props
