import Verif.Spec.RandomTests
import Verif.Props.ReturnsIff
import Verif.Props.Checks
import Verif.Props.DirectedChecks
import Verif.Props.Synthetic
import Mathlib.Combinatorics.SimpleGraph.Acyclic

/-!
# Property C108: the randomised CHAMP tests
-/

namespace Verif.Props
open Verif Verif.Spec

variable {q : QualityFn} {d : TestDraws} {n m Kmax num fuel T : Nat} {directed : Bool}

/-! ### The generators -/

/-- **C108.** `generate_connected_ER` returns exactly the first random graph that is connected (strongly, if directed). -/
theorem c108_connected {draws : Nat → Graph ℝ} {k fuel : Nat} {G : Graph ℝ} :
    connectedER draws k fuel = some G ↔
      ∃ i < fuel, (∀ j < i, ¬ (draws (k + j)).IsConnected) ∧ (draws (k + i)).IsConnected ∧ G = draws (k + i) := by
  induction fuel generalizing k with
  | zero => simp [connectedER]
  | succ fuel ih =>
    rw [connectedER]
    split_ifs with hc
    · constructor
      · rintro h
        exact ⟨0, by omega, fun j hj => absurd hj (by omega), hc, (Option.some.inj h).symm⟩
      · rintro ⟨i, -, h1, -, rfl⟩
        cases i with
        | zero => rfl
        | succ i => exact absurd hc (h1 0 (by omega))
    · rw [ih]
      constructor
      · rintro ⟨i, hi, h1, h2, h3⟩
        refine ⟨i + 1, by omega, fun j hj => ?_, ?_, ?_⟩
        · cases j with
          | zero => exact hc
          | succ j => have := h1 j (by omega); rwa [show k + 1 + j = k + (j + 1) by omega] at this
        · rwa [show k + 1 + i = k + (i + 1) by omega] at h2
        · rwa [show k + 1 + i = k + (i + 1) by omega] at h3
      · rintro ⟨i, hi, h1, h2, h3⟩
        cases i with
        | zero => exact absurd h2 hc
        | succ i =>
          refine ⟨i, by omega, fun j hj => ?_, ?_, ?_⟩
          · have := h1 (j + 1) (by omega); rwa [show k + (j + 1) = k + 1 + j by omega] at this
          · rwa [show k + (i + 1) = k + 1 + i by omega] at h2
          · rwa [show k + (i + 1) = k + 1 + i by omega] at h3

theorem mapM_some {β γ : Type} {f : β → Option γ} : ∀ {l : List β} {r : List γ}, l.mapM f = some r →
    List.Forall₂ (fun x y => f x = some y) l r := by
  intro l
  induction l with
  | nil => intro r h; cases h; exact .nil
  | cons x xs ih =>
    intro r h
    rw [List.mapM_cons] at h
    obtain ⟨y, hy, h⟩ := Option.bind_eq_some_iff.1 h
    obtain ⟨ys, hys, h⟩ := Option.bind_eq_some_iff.1 h
    obtain rfl := Option.some.inj h
    exact .cons hy (ih hys)

/-- **C108.** `generate_random_partitions` returns the requested number of partitions; each has a label for every vertex, and its labels
are exactly `0, …, K - 1` for some `K` between 1 and `K_max`. -/
theorem c108_partitions (hd : ValidDraws d n m Kmax directed) {parts : List (List Nat)}
    (h : randomPartitions d.Ks d.labels num fuel = some parts) :
    parts.length = num ∧ ∀ c ∈ parts, c.length = n ∧ ∃ K, 1 ≤ K ∧ K ≤ Kmax ∧ Contiguous c K := by
  have hf := mapM_some h
  refine ⟨by rw [← hf.length_eq, List.length_range], fun c hc => ?_⟩
  obtain ⟨i, hi, rfl⟩ := List.getElem_of_mem hc
  have := hf.get (show i < (List.range num).length by rw [hf.length_eq]; exact hi) hi
  simp only [List.get_eq_getElem, List.getElem_range] at this
  obtain ⟨⟨j, h1⟩, h2⟩ := c95_random_partition (fun k => (hd.labels i k).2) this
  exact ⟨by rw [h1]; exact (hd.labels i j).1, _, (hd.Ks i).1, (hd.Ks i).2, h2⟩

/-- **C108.** The random values lie in the closed interval. -/
theorem c108_values {u : Nat → ℝ} (hu : ∀ i, 0 ≤ u i ∧ u i ≤ 1) {a b : ℝ} (hab : a ≤ b) (num : Nat) :
    (randomValues u num a b).length = num ∧ ∀ x ∈ randomValues u num a b, a ≤ x ∧ x ≤ b := by
  refine ⟨by simp [randomValues], fun x hx => ?_⟩
  obtain ⟨i, -, rfl⟩ := List.mem_map.1 hx
  have h1 := mul_nonneg (sub_nonneg.2 hab) (hu i).1
  have h2 := mul_le_mul_of_nonneg_left (hu i).2 (sub_nonneg.2 hab)
  constructor <;> linarith

section
variable {G : Graph ℝ}

/-- a connected graph has at most one vertex more than edges -/
theorem connected_edges_undirected (hG : G.WF) (hc : G.IsConnected) : G.vcount ≤ G.ecount + 1 := by
  classical
  let S : SimpleGraph (Fin G.vcount) := SimpleGraph.fromRel fun u v => (u.1, v.1) ∈ G.edges
  have hpos := hc.1
  have hadj : ∀ u v (hu : u < G.vcount) (hv : v < G.vcount), G.Step u v → S.Reachable ⟨u, hu⟩ ⟨v, hv⟩ := by
    intro u v hu hv hs
    by_cases huv : u = v
    · subst huv; exact SimpleGraph.Reachable.refl _
    · apply SimpleGraph.Adj.reachable
      rw [SimpleGraph.fromRel_adj]
      refine ⟨fun h => huv (Fin.mk.inj h), ?_⟩
      rcases hs with h | ⟨-, h⟩
      · exact .inl h
      · exact .inr h
  have hreach : ∀ u v (hu : u < G.vcount), Relation.ReflTransGen G.Step u v → ∃ hv : v < G.vcount, S.Reachable ⟨u, hu⟩ ⟨v, hv⟩ := by
    intro u v hu h
    induction h with
    | refl => exact ⟨hu, SimpleGraph.Reachable.refl _⟩
    | @tail b c _ hs ih =>
      obtain ⟨hb, hr⟩ := ih
      have hv : c < G.vcount := by
        rcases hs with h | ⟨-, h⟩
        · exact (hG.1 _ h).2
        · exact (hG.1 _ h).1
      exact ⟨hv, hr.trans (hadj _ _ hb hv hs)⟩
  have hconn : S.Connected := by
    haveI : Nonempty (Fin G.vcount) := ⟨⟨0, hpos⟩⟩
    exact SimpleGraph.Connected.mk fun u v => (hreach u.1 v.1 u.2 (hc.2 _ u.2 _ v.2)).2
  have h1 := hconn.card_vert_le_card_edgeSet_add_one
  have h2 : Nat.card S.edgeSet ≤ G.ecount := by
    let f : Nat × Nat → Sym2 Nat := fun e => s(e.1, e.2)
    have : S.edgeSet.ncard ≤ (G.edges.map f).toFinset.card := by
      rw [← Set.ncard_coe_finset]
      refine Set.ncard_le_ncard_of_injOn (Sym2.map Fin.val) ?_ (Set.injOn_of_injective (Sym2.map.injective Fin.val_injective))
        (Finset.finite_toSet _)
      intro e
      induction e with
      | _ u v =>
        intro he
        rw [SimpleGraph.mem_edgeSet, SimpleGraph.fromRel_adj] at he
        rw [Finset.mem_coe, List.mem_toFinset, List.mem_map]
        rcases he.2 with h | h
        · exact ⟨_, h, rfl⟩
        · exact ⟨_, h, Sym2.eq_swap⟩
    refine le_trans this (le_trans (List.toFinset_card_le _) ?_)
    rw [List.length_map]; rfl
  rw [Nat.card_eq_fintype_card, Fintype.card_fin] at h1
  omega

/-- a strongly connected graph with two vertices has at least as many edges as vertices -/
theorem connected_edges_directed (hd : G.directed = true) (hc : G.IsConnected) (h2 : 2 ≤ G.vcount) : G.vcount ≤ G.ecount := by
  have hout : ∀ v < G.vcount, ∃ e ∈ G.edges, e.1 = v := by
    intro v hv
    obtain ⟨w, hw, hne⟩ : ∃ w < G.vcount, w ≠ v := by
      by_cases h : v = 0
      · exact ⟨1, by omega, by omega⟩
      · exact ⟨0, by omega, by omega⟩
    rcases Relation.ReflTransGen.cases_head (hc.2 v hv w hw) with h | ⟨u, h, -⟩
    · exact absurd h.symm hne
    · rcases h with h | ⟨h, -⟩
      · exact ⟨_, h, rfl⟩
      · rw [hd] at h; cases h
  have : List.range G.vcount ⊆ G.edges.map Prod.fst := by
    intro v hv
    obtain ⟨e, he, rfl⟩ := hout v (List.mem_range.1 hv)
    exact List.mem_map.2 ⟨e, he, rfl⟩
  have := (List.subperm_of_subset List.nodup_range this).length_le
  rwa [List.length_range, List.length_map] at this

/-- **C108 (limit).** With too few edges – `m + 1 < n`, or `m < n` if directed and `n > 1` – no random graph is connected and the
generator, hence every test, runs for ever. -/
theorem c108_too_few_edges {draws : Nat → Graph ℝ} (hg : ∀ k, ErdosRenyi n m directed (draws k))
    (h : m + 1 < n ∨ directed = true ∧ 1 < n ∧ m < n) (fuel : Nat) : connectedER draws 0 fuel = none := by
  rw [Option.eq_none_iff_forall_ne_some]
  intro G hG
  obtain ⟨i, -, -, hc, -⟩ := c108_connected.1 hG
  have hk := hg (0 + i)
  cases hd : directed with
  | true =>
    have : 1 < n := by rcases h with h | h <;> omega
    have := connected_edges_directed (hk.direction.trans hd) hc (by rw [hk.vertices]; omega)
    rw [hk.vertices, hk.edges] at this
    rcases h with h | h <;> omega
  | false =>
    have := connected_edges_undirected hk.wf hc
    rw [hk.vertices, hk.edges] at this
    rcases h with h | h
    · omega
    · rw [hd] at h; cases h.1

end

/-! ### The single-layer tests -/

theorem two_le_edges {G : Graph ℝ} (hcon : G.IsConnected) (h2 : 2 ≤ G.vcount) : 0 < G.ecount := by
  rcases Relation.ReflTransGen.cases_head (hcon.2 0 (by omega) 1 (by omega)) with h | ⟨u, h, -⟩
  · omega
  · rcases h with h | ⟨-, h⟩ <;> exact List.length_pos_of_mem h

/-- **C108 (coefficients, single layer).** For every sequence of random choices, number of vertices `n ≥ 2`, of edges, of partitions and
of communities, directed or not, every worker count, chunk rounding and completion order: once the generators have returned, the test
passes. -/
theorem c108_coefficients_2D (hq : LeidenalgQuality q) (hd : ValidDraws d n m Kmax directed) (h2 : 2 ≤ n)
    {rnd : Nat → Nat → Nat} {cpu : Nat} (hr : GoodRounding rnd cpu) {sched : List Nat} (hs : ∀ i < cpu, i ∈ sched)
    {G : Graph ℝ} (hg : connectedER d.graphs 0 fuel = some G) {parts : List (List Nat)}
    (hp : randomPartitions d.Ks d.labels num fuel = some parts) :
    coefficientsTest2D q rnd cpu sched d num fuel = some (.ok ()) := by
  obtain ⟨i, -, -, hc, rfl⟩ := c108_connected.1 hg
  have hk := hd.graphs (0 + i)
  obtain ⟨coeffs, h1, h2'⟩ := c101_coefficients_2D_accepted hq hk.wf (two_le_edges hc (by rw [hk.vertices]; exact h2)) (parts := parts)
    (fun c h => ((c108_partitions hd hp).2 c h).1.trans hk.vertices.symm) hr hs false
  unfold coefficientsTest2D
  rw [hg, Option.bind_eq_bind, Option.bind_some, hp, Option.bind_eq_bind, Option.bind_some, h1]
  exact congrArg some h2'

/-- **C108 (ranges).** Likewise the `CHAMP_2D` test, for at least one partition, every non-empty window and every number of gammas. -/
theorem c108_champ_2D (hq : LeidenalgQuality q) {env : ChampEnv} (he : ExactEnv env) (hd : ValidDraws d n m Kmax directed) (h2 : 2 ≤ n)
    (hnum : 0 < num) {γ₀ γf : ℝ} (hγ : γ₀ < γf) {G : Graph ℝ} (hg : connectedER d.graphs 0 fuel = some G) {parts : List (List Nat)}
    (hp : randomPartitions d.Ks d.labels num fuel = some parts) (numGammas : Nat) :
    champTest2D q env d num numGammas γ₀ γf fuel = some (.ok ()) := by
  obtain ⟨i, -, -, hc, rfl⟩ := c108_connected.1 hg
  have hk := hd.graphs (0 + i)
  obtain ⟨hlen, hparts⟩ := c108_partitions hd hp
  have hp' : ∀ c ∈ parts, c.length = (d.graphs (0 + i)).vcount := fun c h => (hparts c h).1.trans hk.vertices.symm
  have hne : parts ≠ [] := by rintro rfl; simp at hlen; omega
  obtain ⟨ranges, h1⟩ := c17_returns_connected he hk.wf hc (by rw [hk.vertices]; exact h2) hp' hne hγ false
  have h3 := c101_ranges_accepted hq he.toSoundEnv hk.wf hp' hne h1 (c108_values hd.gammas hγ.le numGammas).2
  unfold champTest2D
  rw [hg, Option.bind_eq_bind, Option.bind_some, hp, Option.bind_eq_bind, Option.bind_some, h1]
  exact congrArg some h3

/-- **C108 (famous graphs).** For every undirected graph with an edge – connected or not, weighted or not – and all memberships of the
right length, the coefficient test passes before and after the graph is made directed. -/
theorem c108_famous_coefficients (hq : LeidenalgQuality q) {G : Graph ℝ} (hG : G.WF) (hd : G.directed = false) (hm : 0 < G.ecount)
    {leiden leiden' : List (List Nat)} (hl : ∀ c ∈ leiden, c.length = G.vcount) (hl' : ∀ c ∈ leiden', c.length = G.vcount)
    {rnd : Nat → Nat → Nat} {cpu : Nat} (hr : GoodRounding rnd cpu) {sched : List Nat} (hs : ∀ i < cpu, i ∈ sched) :
    famousCoefficientsTest q rnd cpu sched G leiden leiden' = some (.ok ()) := by
  obtain ⟨c, h1, h2⟩ := c101_coefficients_2D_accepted hq hG hm hl hr hs false
  obtain ⟨c', h1', h2'⟩ := c101_coefficients_2D_accepted hq (G := G.toDirected) (by rw [toDirected_undirected hd]; exact bothWays_wf hG)
    (by rw [toDirected_undirected hd]; unfold bothWays Graph.ecount at *; simp; omega)
    (parts := leiden') (by rw [toDirected_undirected hd]; exact hl') hr hs false
  unfold famousCoefficientsTest
  rw [h1, Option.bind_eq_bind, Option.bind_some]
  dsimp only
  rw [h2]
  dsimp only
  rw [h1']
  exact congrArg some h2'

/-- **C108 (famous graphs).** Likewise the `CHAMP_2D` test, if Leiden found at least one partition each time. -/
theorem c108_famous_champ (hq : LeidenalgQuality q) {env : ChampEnv} (he : ExactEnv env) {G : Graph ℝ} (hG : G.WF)
    (hd : G.directed = false) (hm : 0 < G.ecount) {leiden leiden' : List (List Nat)} (hl : ∀ c ∈ leiden, c.length = G.vcount)
    (hl' : ∀ c ∈ leiden', c.length = G.vcount) (hn : leiden ≠ []) (hn' : leiden' ≠ []) {u : Nat → ℝ} (hu : ∀ i, 0 ≤ u i ∧ u i ≤ 1) :
    famousChampTest q env G u leiden leiden' = some (.ok ()) := by
  have hv := (c108_values hu (show (0 : ℝ) ≤ 5 by norm_num) 100).2
  obtain ⟨r, h1⟩ := c17_returns he hG hd hm hl hn (show (0 : ℝ) < 5 by norm_num) false
  obtain ⟨r', h1'⟩ := c17_returns he hG hd hm hl' hn' (show (0 : ℝ) < 5 by norm_num) false
  rw [← c92_champ2D env hd] at h1'
  have h2 := c101_ranges_accepted hq he.toSoundEnv hG hl hn h1 hv
  have h2' := c101_ranges_accepted hq he.toSoundEnv (bothWays_wf hG) hl' hn' h1' hv
  unfold famousChampTest
  rw [h1, Option.bind_eq_bind, Option.bind_some]
  dsimp only
  rw [h2]
  dsimp only
  rw [toDirected_undirected hd, h1']
  exact congrArg some h2'

/-! ### The multilayer tests -/

section
variable {env : LeidenEnv} {heap : Nat → Graph ℝ} {obj : Nat} {w : World} {order : List Nat}

theorem split_layers {G Gi Gx : Graph ℝ} {layers : List Nat} (hG : G.WF) (hv : G.vcount = n * T)
    (h : splitByLayer G n T = .ok (Gi, Gx, layers)) :
    layers = layerVector n T ∧ Multilayer Gi Gx layers ∧ Gi.vcount = n * T ∧ Gi.directed = G.directed ∧
      (∀ e ∈ Gi.edges, layers[e.1]? = layers[e.2]?) ∧ Gi.weight = none ∧ Gx.weight = none ∧
      ((∀ t ∈ layers, ∃ e ∈ Gi.edges, layers[e.1]? = some t) ↔
        0 < n → ∀ l < T, ∃ e ∈ G.edges, e.1 / n = l ∧ e.2 / n = l) := by
  obtain ⟨Gi', Gx', h1, hM, h3, h4, h5, h6, h7, h8⟩ := c95_split hG hv
  rw [h1] at h
  cases h
  have hlay : ∀ i < n * T, (layerVector n T)[i]? = some (i / n) := fun i hi => layerVector_get hi
  have hw : Gi.weight = none ∧ Gx.weight = none := by
    unfold splitByLayer at h1
    obtain ⟨_, -, h1⟩ := Py.bind_ok.1 h1
    obtain ⟨a, ha, h1⟩ := Py.bind_ok.1 h1
    obtain ⟨b, hb, h1⟩ := Py.bind_ok.1 h1
    cases h1
    unfold newGraph at ha hb
    constructor
    · split at ha <;> cases ha; rfl
    · split at hb <;> cases hb; rfl
  have hb : ∀ e ∈ Gi.edges, e.1 < n * T ∧ e.2 < n * T := fun e he => h3 ▸ hM.intra.1 e he
  refine ⟨rfl, hM, h3, h4, fun e he => ?_, hw.1, hw.2, ?_⟩
  · rw [hlay _ (hb e he).1, hlay _ (hb e he).2, h7 e he]
  · constructor
    · intro h hn l hl
      have hmem : l ∈ layerVector n T := by
        refine List.mem_of_getElem? (i := n * l) ?_
        rw [hlay _ (by exact (Nat.mul_lt_mul_left hn).2 hl), Nat.mul_div_cancel_left _ hn]
      obtain ⟨e, he, he1⟩ := h l hmem
      rw [hlay _ (hb e he).1] at he1
      have he1 := Option.some.inj he1
      exact ⟨e, (h6.mem_iff.1 (List.mem_append_left _ he)), he1, by rw [← h7 e he]; exact he1⟩
    · intro h t ht
      obtain ⟨i, hi, rfl⟩ := List.mem_map.1 ht
      have hi := List.mem_range.1 hi
      have hn : 0 < n := Nat.pos_of_ne_zero (by rintro rfl; simp at hi)
      obtain ⟨e, he, e1, e2⟩ := h hn (i / n) (Nat.div_lt_of_lt_mul hi)
      have : e ∈ Gi.edges := by
        rcases List.mem_append.1 (h6.mem_iff.2 he) with h | h
        · exact h
        · exact absurd (e1.trans e2.symm) (h8 e h)
      exact ⟨e, this, by rw [hlay _ (hb e this).1, e1]⟩

theorem unitWeights_default {test : Graph ℝ → Bool} {G : Graph ℝ} (h : G.weight = none) (hs : SaneTest test G) :
    UnitWeights (defaulted test G) := by
  unfold defaulted
  rw [if_neg (fun ht => hs ht h)]
  rfl

/-- **C108 (coefficients, multilayer).** For every sequence of random choices, `n ≥ 1` vertices in each of `T ≥ 1` layers, and at least
one partition, in every process state reached by calls of the Leiden functions: once the generators have returned, the test passes if
every layer has an edge inside, and fails with `AssertionError` otherwise – although the random graph as a whole is connected. -/
theorem c108_coefficients_3D (hq : LeidenalgQuality q) (hd : ValidDraws d (n * T) m Kmax directed) (hn : 0 < n) (hT : 0 < T)
    (hnum : 0 < num) {rnd : Nat → Nat → Nat} {cpu : Nat} (hcpu : 1 ≤ cpu) (hr : GoodRounding rnd cpu) {sched : List Nat}
    (hs : ∀ i < cpu, i ∈ sched) {G Gi Gx : Graph ℝ} {layers : List Nat} (hg : connectedER d.graphs 0 fuel = some G)
    (hsplit : splitByLayer G n T = .ok (Gi, Gx, layers)) {parts : List (List Nat)}
    (hp : randomPartitions d.Ks d.labels num fuel = some parts)
    (hheap : ∀ o, (heap o).WF ∧ SaneTest env.test (heap o)) (hobj : heap obj = Gi) (hx : SaneTest env.test Gx)
    (hw : Reachable env heap w) (ho : order.Perm layers.dedup) :
    let r := coefficientsTest3D q env.test order obj rnd cpu sched d n T num fuel w
    let everyLayer := ∀ l < T, ∃ e ∈ G.edges, e.1 / n = l ∧ e.2 / n = l
    (everyLayer → r = some (.ok ())) ∧ (¬ everyLayer → r = some (.error .assertionError)) := by
  intro r everyLayer
  obtain ⟨i, -, -, hc, rfl⟩ := c108_connected.1 hg
  have hk := hd.graphs (0 + i)
  obtain ⟨rfl, hM, hv, hdir, hcross, hwi, hwx, hlayer⟩ := split_layers hk.wf hk.vertices hsplit
  obtain ⟨hlen, hparts⟩ := c108_partitions hd hp
  have hp' : ∀ c ∈ parts, c.length = Gi.vcount := fun c h => (hparts c h).1.trans hv.symm
  have hlne : layerVector n T ≠ [] := by
    intro h
    have := layerVector_length n T
    rw [h] at this
    have : 0 < n * T := Nat.mul_pos hn hT
    simp at *; omega
  subst hobj
  have hr' : ∀ {coeffs : List ℝ × List (Fl ℝ) × List ℝ},
      partitionCoefficients3D rnd cpu sched (heap obj) Gx (layerVector n T) parts = some (.ok coeffs) →
      r = some ((checkCoefficients3D q env.test order obj (heap obj) Gx (layerVector n T) parts coeffs w).1 >>= fun _ => .ok ()) := by
    intro coeffs h
    show coefficientsTest3D q env.test order obj rnd cpu sched d n T num fuel w = _
    unfold coefficientsTest3D
    rw [hg, Option.bind_eq_bind, Option.bind_some, hsplit]
    dsimp only
    rw [hp, Option.bind_eq_bind, Option.bind_some, h]
    rfl
  constructor
  · intro hall
    obtain ⟨coeffs, s, h1, h2⟩ := c101_coefficients_3D_accepted hq hheap ho hM hcross hlne (hlayer.2 fun _ => hall)
      (unitWeights_default hwi (hheap obj).2) (unitWeights_default hwx hx) hp' hcpu hr hs hw
    rw [hr' h1, h2]
    rfl
  · intro hno
    have hno' : ¬ ∀ t ∈ layerVector n T, ∃ e ∈ (heap obj).edges, (layerVector n T)[e.1]? = some t := fun h =>
      hno (hlayer.1 h hn)
    push Not at hno'
    obtain ⟨t, ht, hempty⟩ := hno'
    obtain ⟨v, hv'⟩ := coefficients3D_any hM hlne hp'
    obtain ⟨res, h1, h2⟩ := c11_parallel_3D hcpu hr hs (heap obj) Gx (layerVector n T) parts
    obtain rfl := (h2 _).mpr hv'
    rw [hr' h1]
    have h3 := (c101_coefficients_3D_meaning hq hheap ho hM hcross hlne (unitWeights_default hwi (hheap obj).2)
      (unitWeights_default hwx hx) hp' v.1 v.2.1 v.2.2 hw).2 (by
        intro hag
        obtain ⟨c, cs, rfl⟩ := List.exists_cons_of_ne_nil (show parts ≠ [] by rintro rfl; simp at hlen; omega)
        obtain ⟨ec, hec, -⟩ := ecountPerLayer_ok (F := ℝ) hM.intra hM.layers hlne
        obtain ⟨a, p, x, e1, e2, e3, rfl⟩ := (serial3D_ok_iff hec).mp hv'
        obtain ⟨A1, P1, C1, hser1, hP1, -⟩ := c12_failures_3D hM.intra hM.inter hM.vcount hM.layers ht hempty (hp' c (by simp))
        obtain ⟨a', p', x', f1, f2, f3, f4⟩ := (serial3D_ok_iff hec).mp hser1
        rw [List.mapM_cons] at e1 e2 e3 f2
        obtain ⟨y1, -, e1⟩ := Py.bind_ok.1 e1
        obtain ⟨z1, -, e1⟩ := Py.bind_ok.1 e1
        obtain ⟨y2, hy2, e2⟩ := Py.bind_ok.1 e2
        obtain ⟨z2, -, e2⟩ := Py.bind_ok.1 e2
        obtain ⟨y3, -, e3⟩ := Py.bind_ok.1 e3
        obtain ⟨z3, -, e3⟩ := Py.bind_ok.1 e3
        cases e1; cases e2; cases e3
        obtain ⟨y4, hy4, f2⟩ := Py.bind_ok.1 f2
        rw [hy2] at hy4
        cases hy4
        cases f2
        have : P1 = y2 := by
          have := congrArg (fun v => v.2.1) f4
          simpa using this
        obtain ⟨-, ⟨r, hr, -⟩, -⟩ := hag (c, y1, y2, y3) (by simp)
        exact hP1 r (this.trans hr))
    have h3' : (checkCoefficients3D q env.test order obj (heap obj) Gx (layerVector n T) parts v w).1 = .error .assertionError := h3
    rw [h3']
    rfl

/-- **C108 (domains).** Likewise the `CHAMP_3D` test: once the generators have returned, it passes iff both windows are not empty, every
layer has an edge inside, and every one of the partitions that is optimal at `(gamma_start, omega_end)` has a positive null-model sum or
an interlayer edge inside a community; otherwise `CHAMP_3D` raises `ValueError`.  On undirected graphs the third condition always
holds. -/
theorem c108_champ_3D (hq : LeidenalgQuality q) {cenv : ChampEnv} (he : ExactEnv cenv) (hd : ValidDraws d (n * T) m Kmax directed)
    (hn : 0 < n) (hT : 0 < T) (hnum : 0 < num) {G Gi Gx : Graph ℝ} {layers : List Nat} (hg : connectedER d.graphs 0 fuel = some G)
    (hsplit : splitByLayer G n T = .ok (Gi, Gx, layers)) {parts : List (List Nat)}
    (hp : randomPartitions d.Ks d.labels num fuel = some parts)
    (hheap : ∀ o, (heap o).WF ∧ SaneTest env.test (heap o)) (hobj : heap obj = Gi) (hx : SaneTest env.test Gx)
    (hw : Reachable env heap w) (numPoints : Nat) (γ₀ γf ω₀ ωf : ℝ) :
    let r := champTest3D q env.test obj cenv d n T num numPoints γ₀ γf ω₀ ωf fuel w
    let passes := γ₀ < γf ∧ ω₀ < ωf ∧ (∀ l < T, ∃ e ∈ G.edges, e.1 / n = l ∧ e.2 / n = l) ∧
      (directed = true → ∀ c ∈ parts,
        (∀ c' ∈ parts, multilayerModularity Gi Gx layers γ₀ ωf c' ≤ multilayerModularity Gi Gx layers γ₀ ωf c) →
          0 < withinNullLayered Gi layers c ∨ 0 < withinAdj Gx c)
    (passes → r = some (.ok ())) ∧ (¬ passes → ∃ msg, r = some (.error (.valueError msg))) := by
  intro r passes
  obtain ⟨i, -, -, hc, rfl⟩ := c108_connected.1 hg
  have hk := hd.graphs (0 + i)
  obtain ⟨rfl, hM, hv, hdir, hcross, hwi, hwx, hlayer⟩ := split_layers hk.wf hk.vertices hsplit
  obtain ⟨hlen, hparts⟩ := c108_partitions hd hp
  have hp' : ∀ c ∈ parts, c.length = Gi.vcount := fun c h => (hparts c h).1.trans hv.symm
  have hne : parts ≠ [] := by rintro rfl; simp at hlen; omega
  have hlne : layerVector n T ≠ [] := by
    intro h
    have := layerVector_length n T
    rw [h] at this
    have : 0 < n * T := Nat.mul_pos hn hT
    simp at *; omega
  subst hobj
  have hr' : ∀ {res : Py (List (List (ℝ × ℝ) × List Nat))},
      champ3D cenv (heap obj) Gx (layerVector n T) parts γ₀ γf ω₀ ωf = (some res : Option _) →
      r = some (res >>= fun doms => (checkDomains3D q env.test obj (heap obj) Gx (layerVector n T) parts doms
        ((randomValues d.gammas numPoints γ₀ γf).zip (randomValues d.omegas numPoints ω₀ ωf)) w).1) := by
    intro res h
    show champTest3D q env.test obj cenv d n T num numPoints γ₀ γf ω₀ ωf fuel w = _
    unfold champTest3D
    rw [hg, Option.bind_eq_bind, Option.bind_some, hsplit]
    dsimp only
    rw [hp, Option.bind_eq_bind, Option.bind_some, h]
    rfl
  have hpass : ∀ doms, γ₀ < γf → ω₀ < ωf →
      champ3D cenv (heap obj) Gx (layerVector n T) parts γ₀ γf ω₀ ωf = (some (.ok doms) : Option _) → r = some (.ok ()) := by
    intro doms hγ hω h
    rw [hr' h]
    refine congrArg some ?_
    refine c101_domains_accepted hq hheap he.toSoundEnv hM hcross hlne (unitWeights_default hwi (hheap obj).2)
      (unitWeights_default hwx hx) hp' hne h ?_ hw
    intro x hx
    obtain ⟨a, b⟩ := List.of_mem_zip hx
    exact ⟨(c108_values hd.gammas hγ.le numPoints).2 _ a, (c108_values hd.omegas hω.le numPoints).2 _ b⟩
  have hdir' : (heap obj).directed = directed := hdir.trans hk.direction
  by_cases hall : ∀ l < T, ∃ e ∈ (d.graphs (0 + i)).edges, e.1 / n = l ∧ e.2 / n = l
  · obtain ⟨c1, c2⟩ := c21_returns_iff (γ₀ := γ₀) (γf := γf) (ω₀ := ω₀) (ωf := ωf) he hM hlne (hlayer.2 fun _ => hall) hp' hne
    constructor
    · rintro ⟨hγ, hω, -, hopt⟩
      cases hb : directed with
      | true =>
        obtain ⟨doms, h⟩ := c1 ⟨hγ, hω, hopt hb⟩
        exact hpass doms hγ hω h
      | false =>
        obtain ⟨doms, h⟩ := c21_returns he hM (hdir'.trans hb) hlne (hlayer.2 fun _ => hall) hp' hne hγ hω
        exact hpass doms hγ hω h
    · intro hno
      obtain ⟨msg, h⟩ := c2 fun h => hno ⟨h.1, h.2.1, hall, fun _ => h.2.2⟩
      exact ⟨msg, by rw [hr' h]; rfl⟩
  · refine ⟨fun h => absurd h.2.2.1 hall, fun _ => ?_⟩
    have hno' : ¬ ∀ t ∈ layerVector n T, ∃ e ∈ (heap obj).edges, (layerVector n T)[e.1]? = some t := fun h =>
      hall (hlayer.1 h hn)
    push Not at hno'
    obtain ⟨t, ht, hempty⟩ := hno'
    obtain ⟨msg, h⟩ := c21_empty_layer he.toSoundEnv hM ht hempty hp' hne γ₀ γf ω₀ ωf
    exact ⟨msg, by rw [hr' h]; rfl⟩

end

/-! ### Witnesses -/

/-- two draws: an edgeless graph, then a directed triangle -/
noncomputable def cycleDraws : TestDraws where
  graphs k := if k = 0 then ⟨3, true, [(0, 1), (1, 0), (0, 1)], none⟩ else gCycle3
  Ks _ := 2
  labels _ k := if k = 0 then [1, 1, 1] else [0, 1, 0]
  gammas _ := 1 / 2
  omegas _ := 0

theorem cycleDraws_valid : ValidDraws cycleDraws 3 3 4 true where
  graphs k := by
    unfold cycleDraws
    dsimp only
    split_ifs
    · exact ⟨⟨by decide, by intro ws h; cases h⟩, rfl, rfl, rfl, rfl⟩
    · exact ⟨⟨by decide, by intro ws h; cases h⟩, rfl, rfl, rfl, rfl⟩
  Ks _ := ⟨Nat.le_of_ble_eq_true rfl, Nat.le_of_ble_eq_true rfl⟩
  labels i k := by
    unfold cycleDraws
    dsimp only
    split_ifs
    · exact ⟨rfl, by decide⟩
    · exact ⟨rfl, by decide⟩
  gammas i := by unfold cycleDraws; norm_num
  omegas i := by unfold cycleDraws; norm_num

theorem cycleDraws_graph : connectedER cycleDraws.graphs 0 5 = some gCycle3 := by
  rw [c108_connected]
  refine ⟨1, by omega, ?_, gCycle3_connected, rfl⟩
  intro j hj
  obtain rfl : j = 0 := by omega
  rintro ⟨-, h⟩
  have key : ∀ v, Relation.ReflTransGen (Graph.Step (cycleDraws.graphs (0 + 0))) 0 v → v ≤ 1 := by
    intro v h
    induction h with
    | refl => omega
    | tail _ h ih =>
      rcases h with h | ⟨h, -⟩
      · simp [cycleDraws] at h; omega
      · simp [cycleDraws] at h
  have := key 2 (h 0 (by decide) 2 (by decide))
  omega

theorem cycleDraws_parts : randomPartitions cycleDraws.Ks cycleDraws.labels 2 5 = some [[0, 1, 0], [0, 1, 0]] := by
  decide +kernel

/-- The single-layer tests pass on these draws. -/
example : coefficientsTest2D documentedQuality (fun n k => n / k) 2 [1, 0] cycleDraws 2 5 = some (.ok ()) ∧
    champTest2D documentedQuality exactEnv cycleDraws 2 7 0 2 5 = some (.ok ()) :=
  ⟨c108_coefficients_2D documentedQuality_leidenalg cycleDraws_valid (by omega)
      ⟨fun _ _ h => Nat.div_le_div_right h, fun k => Nat.mul_div_cancel k (by omega)⟩ (by decide) cycleDraws_graph cycleDraws_parts,
    c108_champ_2D documentedQuality_leidenalg exactEnv_exact cycleDraws_valid (by omega) (by omega) (by norm_num) cycleDraws_graph
      cycleDraws_parts 7⟩

/-- A triangle and an isolated vertex: the tests with famous graphs pass. -/
example : famousChampTest documentedQuality exactEnv ⟨4, false, [(0, 1), (1, 2), (0, 2)], none⟩ (fun _ => 1) [[0, 0, 0, 1]]
    [[0, 1, 0, 1], [0, 1, 2, 3]] = some (.ok ()) :=
  c108_famous_champ documentedQuality_leidenalg exactEnv_exact ⟨by decide, by intro ws h; cases h⟩ rfl (by decide) (by decide)
    (by decide) (by decide) (by decide) fun _ => ⟨by norm_num, by norm_num⟩

/-- draws of an undirected path on four vertices in the given order -/
noncomputable def pathDraws (a b c e : Nat) : TestDraws where
  graphs _ := ⟨4, false, [(a, b), (b, c), (c, e)], none⟩
  Ks _ := 2
  labels _ _ := [0, 1, 0, 0]
  gammas _ := 1
  omegas _ := 1 / 3

theorem path_connected {a b c e : Nat} (h : List.Perm [a, b, c, e] [0, 1, 2, 3]) :
    Graph.IsConnected (⟨4, false, [(a, b), (b, c), (c, e)], none⟩ : Graph ℝ) := by
  let G : Graph ℝ := ⟨4, false, [(a, b), (b, c), (c, e)], none⟩
  have s : ∀ u v, (u, v) ∈ G.edges → G.Step u v ∧ G.Step v u := fun u v h => ⟨.inl h, .inr ⟨rfl, h⟩⟩
  have ab := s a b (by simp [G])
  have bc := s b c (by simp [G])
  have ce := s c e (by simp [G])
  have toA : ∀ v ∈ [a, b, c, e], Relation.ReflTransGen G.Step v a ∧ Relation.ReflTransGen G.Step a v := by
    intro v hv
    have b' : Relation.ReflTransGen G.Step b a ∧ Relation.ReflTransGen G.Step a b := ⟨.single ab.2, .single ab.1⟩
    have c' : Relation.ReflTransGen G.Step c a ∧ Relation.ReflTransGen G.Step a c :=
      ⟨.head bc.2 b'.1, .tail b'.2 bc.1⟩
    simp only [List.mem_cons, List.not_mem_nil, or_false] at hv
    rcases hv with rfl | rfl | rfl | rfl
    · exact ⟨.refl, .refl⟩
    · exact b'
    · exact c'
    · exact ⟨.head ce.2 c'.1, .tail c'.2 ce.1⟩
  have hmem : ∀ v < 4, v ∈ [a, b, c, e] := by
    intro v hv
    rw [h.mem_iff]
    interval_cases v <;> simp
  exact ⟨Nat.succ_pos 3, fun u hu v hv => (toA u (hmem u hu)).1.trans (toA v (hmem v hv)).2⟩

theorem pathDraws_valid {a b c e : Nat} (h : List.Perm [a, b, c, e] [0, 1, 2, 3]) : ValidDraws (pathDraws a b c e) (2 * 2) 3 3 false where
  graphs k := by
    have hb : ∀ v ∈ [a, b, c, e], v < 4 := fun v hv => by
      rw [h.mem_iff] at hv; simp at hv; omega
    have ha := hb a (by simp)
    have hb' := hb b (by simp)
    have hc := hb c (by simp)
    have he := hb e (by simp)
    refine ⟨⟨?_, by intro ws h; cases h⟩, rfl, rfl, rfl, rfl⟩
    intro x hx
    simp only [pathDraws, List.mem_cons, List.not_mem_nil, or_false] at hx ⊢
    rcases hx with rfl | rfl | rfl <;> exact ⟨by assumption, by assumption⟩
  Ks _ := ⟨Nat.le_of_ble_eq_true rfl, Nat.le_of_ble_eq_true rfl⟩
  labels i k := ⟨rfl, (by decide : ∀ x ∈ [0, 1, 0, 0], x < 2)⟩
  gammas i := by unfold pathDraws; norm_num
  omegas i := by unfold pathDraws; norm_num

theorem pathDraws_graph {a b c e : Nat} (h : List.Perm [a, b, c, e] [0, 1, 2, 3]) :
    connectedER (pathDraws a b c e).graphs 0 1 = some ⟨4, false, [(a, b), (b, c), (c, e)], none⟩ :=
  c108_connected.2 ⟨0, by omega, fun j hj => absurd hj (by omega), path_connected h, rfl⟩

/-- The path 0 – 1 – 2 – 3 has an edge in each of two layers: both multilayer tests pass … -/
example : coefficientsTest3D documentedQuality (fun _ => false) [1, 0] 7 (fun n k => n / k) 2 [0, 1] (pathDraws 0 1 2 3) 2 2 3 1
      World.fresh = some (.ok ()) ∧
    champTest3D documentedQuality (fun _ => false) 7 exactEnv (pathDraws 0 1 2 3) 2 2 3 9 0 1 0 1 1 World.fresh = some (.ok ()) := by
  have hsplit : splitByLayer ⟨4, false, [(0, 1), (1, 2), (2, 3)], none⟩ 2 2 =
      .ok (⟨4, false, [(0, 1), (2, 3)], none⟩, ⟨4, false, [(1, 2)], none⟩, [0, 0, 1, 1]) := rfl
  have hheap : ∀ o : Nat, ((fun _ => ⟨4, false, [(0, 1), (2, 3)], none⟩) o : Graph ℝ).WF ∧
      SaneTest (copiesEnv.test) ((fun _ => ⟨4, false, [(0, 1), (2, 3)], none⟩) o : Graph ℝ) :=
    fun _ => ⟨⟨(by decide : ∀ e ∈ [(0, 1), (2, 3)], e.1 < 4 ∧ e.2 < 4), by intro ws h; cases h⟩, fun h => by cases h⟩
  exact ⟨(c108_coefficients_3D (env := copiesEnv) (heap := fun _ => ⟨4, false, [(0, 1), (2, 3)], none⟩) documentedQuality_leidenalg
      (pathDraws_valid (List.Perm.refl _)) (by omega) (by omega) (by omega) (by omega)
      ⟨fun _ _ h => Nat.div_le_div_right h, fun k => Nat.mul_div_cancel k (by omega)⟩ (by decide) (pathDraws_graph (List.Perm.refl _))
      hsplit (parts := List.replicate 3 [0, 1, 0, 0]) (by decide +kernel) hheap rfl (fun h => by cases h) .fresh (by decide)).1
        (by decide),
    (c108_champ_3D (env := copiesEnv) (heap := fun _ => ⟨4, false, [(0, 1), (2, 3)], none⟩) documentedQuality_leidenalg exactEnv_exact
      (pathDraws_valid (List.Perm.refl _)) (by omega) (by omega) (by omega) (pathDraws_graph (List.Perm.refl _))
      hsplit (parts := List.replicate 3 [0, 1, 0, 0]) (by decide +kernel) hheap rfl (fun h => by cases h) .fresh 9 0 1 0 1).1
        ⟨by norm_num, by norm_num, by decide, fun h => by cases h⟩⟩

/-- … but on the path 0 – 2 – 1 – 3, just as connected, no edge is inside a layer and they fail. -/
example : coefficientsTest3D documentedQuality (fun _ => false) [1, 0] 7 (fun n k => n / k) 2 [0, 1] (pathDraws 0 2 1 3) 2 2 3 1
      World.fresh = some (.error .assertionError) := by
  have hsplit : splitByLayer ⟨4, false, [(0, 2), (2, 1), (1, 3)], none⟩ 2 2 =
      .ok (⟨4, false, [], none⟩, ⟨4, false, [(0, 2), (2, 1), (1, 3)], none⟩, [0, 0, 1, 1]) := rfl
  exact (c108_coefficients_3D (env := copiesEnv) (heap := fun _ => ⟨4, false, [], none⟩) documentedQuality_leidenalg
    (pathDraws_valid (by decide)) (by omega) (by omega) (by omega) (by omega)
    ⟨fun _ _ h => Nat.div_le_div_right h, fun k => Nat.mul_div_cancel k (by omega)⟩ (by decide) (pathDraws_graph (by decide))
    hsplit (parts := List.replicate 3 [0, 1, 0, 0]) (by decide +kernel)
    (fun _ => ⟨⟨by decide, by intro ws h; cases h⟩, fun h => by cases h⟩) rfl (fun h => by cases h) .fresh (by decide)).2
      (by decide)

end Verif.Props
