import Verif.Spec.Lfr
import Verif.Props.Scores
import Verif.Props.Drivers
import Verif.Props.Prune
import Verif.Props.Renumber
import Verif.Props.Invariance
import Verif.Props.Snap
import Verif.Props.LoopTest

/-!
# C89: the LFR benchmark
-/

namespace Verif.Props
open Verif Spec

/-! ### Ground truth -/

theorem assignCommunity_eq (i : Nat) (c : List Nat) (vec : List (Option Nat)) :
    ((∀ v ∈ c, v < vec.length) → ∃ vec', assignCommunity i c vec = .ok vec' ∧ vec'.length = vec.length ∧
      ∀ v < vec.length, vec'[v]? = if v ∈ c then some (some i) else vec[v]?) ∧
    ∀ vec', assignCommunity i c vec = .ok vec' → ∀ v ∈ c, v < vec.length := by
  induction c generalizing vec with
  | nil => exact ⟨fun _ => ⟨vec, rfl, rfl, by simp⟩, by simp⟩
  | cons x c ih =>
    unfold assignCommunity
    constructor
    · intro h
      have hx := h x (by simp)
      rw [if_pos hx]
      obtain ⟨vec', h1, h2, h3⟩ := (ih (vec.set x (some i))).1 (fun v hv => by
        rw [List.length_set]; exact h v (by simp [hv]))
      rw [List.length_set] at h2 h3
      refine ⟨vec', h1, h2, fun v hv => ?_⟩
      rw [h3 v hv]
      by_cases hc : v ∈ c
      · simp [hc]
      · by_cases hvx : v = x
        · subst hvx; simp [hc, hv]
        · simp [hc, hvx, List.getElem?_set_ne (Ne.symm hvx)]
    · intro vec' h v hv
      split at h
      · rename_i hx
        rcases List.mem_cons.mp hv with rfl | hv
        · exact hx
        · have := (ih _).2 _ h v hv
          rwa [List.length_set] at this
      · cases h

theorem assignCommunities_ok {i : Nat} {cs : List (List Nat)} {vec vec' : List (Option Nat)}
    (h : assignCommunities i cs vec = .ok vec') :
    vec'.length = vec.length ∧ (∀ c ∈ cs, c ≠ [] ∧ ∀ v ∈ c, v < vec.length) ∧
      ∀ v k, vec'[v]? = some (some k) → vec[v]? = some (some k) ∨ ∃ j c, cs[j]? = some c ∧ v ∈ c ∧ k = i + j := by
  induction cs generalizing i vec with
  | nil => cases h; exact ⟨rfl, by simp, fun v k h => .inl h⟩
  | cons c cs ih =>
    unfold assignCommunities at h
    split at h
    · cases h
    · rename_i hne
      obtain ⟨vec₁, h1, h⟩ := Py.bind_ok' h
      have hb := (assignCommunity_eq i c vec).2 _ h1
      obtain ⟨vec₂, e2, l2, v2⟩ := (assignCommunity_eq i c vec).1 hb
      rw [e2] at h1
      cases h1
      obtain ⟨l3, b3, v3⟩ := ih h
      rw [l2] at l3 b3
      refine ⟨l3, ?_, fun v k hk => ?_⟩
      · intro c' hc'
        rcases List.mem_cons.mp hc' with rfl | hc'
        · exact ⟨fun h0 => hne (by simp [h0]), hb⟩
        · exact b3 c' hc'
      · rcases v3 v k hk with h0 | ⟨j, c', hj, hv, rfl⟩
        · have hlt : v < vec.length := by
            have := (List.getElem?_eq_some_iff.mp h0).1
            rwa [l2] at this
          rw [v2 v hlt] at h0
          by_cases hc : v ∈ c
          · rw [if_pos hc] at h0
            refine .inr ⟨0, c, rfl, hc, ?_⟩
            simpa using h0.symm
          · rw [if_neg hc] at h0; exact .inl h0
        · exact .inr ⟨j + 1, c', hj, hv, by omega⟩

theorem checkCommunities_ok {i : Nat} {cs : List (List Nat)} {vec : List (Option Nat)} :
    checkCommunities i cs vec = .ok () ↔ ∀ j c, cs[j]? = some c → ∀ v ∈ c, vec[v]? = some (some (i + j)) := by
  induction cs generalizing i with
  | nil => simp [checkCommunities]
  | cons c cs ih =>
    unfold checkCommunities
    split
    · rename_i hall
      rw [ih]
      rw [List.all_eq_true] at hall
      constructor
      · intro h j c' hj v hv
        match j with
        | 0 =>
          simp only [List.getElem?_cons_zero, Option.some.injEq] at hj
          subst hj
          simpa using hall v hv
        | j + 1 =>
          rw [h j c' (by simpa using hj) v hv]
          congr 2; omega
      · intro h j c' hj v hv
        rw [h (j + 1) c' (by simpa using hj) v hv]
        congr 2; omega
    · rename_i hall
      constructor
      · intro h; cases h
      · intro h
        exfalso
        apply hall
        rw [List.all_eq_true]
        intro v hv
        simpa using h 0 c rfl v hv

/-- With disjoint communities within range, the first loop succeeds. -/
theorem assignCommunities_disjoint {i : Nat} {cs : List (List Nat)} {vec : List (Option Nat)}
    (hne : ∀ c ∈ cs, c ≠ []) (hb : ∀ c ∈ cs, ∀ v ∈ c, v < vec.length) (hd : cs.Pairwise List.Disjoint) :
    ∃ vec', assignCommunities i cs vec = .ok vec' ∧ vec'.length = vec.length ∧
      (∀ j c, cs[j]? = some c → ∀ v ∈ c, vec'[v]? = some (some (i + j))) ∧
      ∀ v, (∀ c ∈ cs, v ∉ c) → vec'[v]? = vec[v]? := by
  induction cs generalizing i vec with
  | nil => exact ⟨vec, rfl, rfl, by simp, by simp⟩
  | cons c cs ih =>
    unfold assignCommunities
    rw [if_neg (by simpa using hne c (by simp))]
    obtain ⟨vec₁, e1, l1, v1⟩ := (assignCommunity_eq i c vec).1 (hb c (by simp))
    rw [List.pairwise_cons] at hd
    obtain ⟨vec₂, e2, l2, v2, u2⟩ := ih (i := i + 1) (vec := vec₁) (fun c' h => hne c' (by simp [h]))
      (fun c' h v hv => by rw [l1]; exact hb c' (by simp [h]) v hv) hd.2
    refine ⟨vec₂, by rw [e1, Py.ok_bind, e2], l2.trans l1, ?_, ?_⟩
    · intro j c' hj v hv
      match j with
      | 0 =>
        simp only [List.getElem?_cons_zero, Option.some.injEq] at hj
        subst hj
        rw [u2 v (fun c' hc' hv' => hd.1 c' hc' hv hv'), v1 v (hb _ (by simp) v hv), if_pos hv]
        rfl
      | j + 1 =>
        rw [v2 j c' (by simpa using hj) v hv]
        congr 2; omega
    · intro v hv
      rw [u2 v (fun c' hc' => hv c' (by simp [hc']))]
      by_cases hlt : v < vec.length
      · rw [v1 v hlt, if_neg (hv c (by simp))]
      · rw [List.getElem?_eq_none (by omega), List.getElem?_eq_none (by omega)]

theorem filterMap_id_of_some {l : List (Option Nat)} (h : l.any Option.isNone = false) :
    l = (l.filterMap id).map some := by
  induction l with
  | nil => rfl
  | cons x l ih =>
    cases x with
    | none => simp at h
    | some x =>
      simp only [List.any_cons, Option.isNone_some, Bool.false_or] at h
      simpa using ih h

variable {G : NxLfr} {iteration : List (List Nat)}

theorem iteration_mem (hi : IterationOf G.community iteration) (u v : Nat) :
    Together G u v ↔ ∃ (j : Nat) (c : List Nat), iteration[j]? = some c ∧ u ∈ c ∧ v ∈ c := by
  unfold Together
  constructor
  · rintro ⟨C, hC, hu, hv⟩
    have : C ∈ iteration.map List.toFinset := hi.1.mem_iff.mpr (List.mem_dedup.mpr hC)
    obtain ⟨c, hc, rfl⟩ := List.mem_map.mp this
    obtain ⟨j, hj⟩ := List.getElem?_of_mem hc
    exact ⟨j, c, hj, by simpa using hu, by simpa using hv⟩
  · rintro ⟨j, c, hj, hu, hv⟩
    have : c.toFinset ∈ iteration.map List.toFinset := List.mem_map.mpr ⟨c, List.mem_of_getElem? hj, rfl⟩
    exact ⟨c.toFinset, List.mem_dedup.mp (hi.1.mem_iff.mp this), by simpa using hu, by simpa using hv⟩

/-- **C89 (ground truth).** If the benchmark graph is accepted, the ground truth has one label per vertex of the graph, the
labels are `0, …, K - 1` for the `K` different communities, two vertices have the same label exactly if they are in a common
community, and the communities are nonempty and cover the vertices without overlap. -/
theorem c89_ground_truth (hi : IterationOf G.community iteration) {H : Graph ℝ} {truth : List Nat}
    (h : groundTruth G iteration = .ok (H, truth)) :
    H = graphOfEdges G.edges ∧ H.vcount = G.nodes ∧ truth.length = G.nodes ∧
    Contiguous truth G.community.dedup.length ∧
    (∀ u < G.nodes, ∀ v < G.nodes, truth[u]? = truth[v]? ↔ Together G u v) ∧
    (∀ C ∈ G.community, C.Nonempty ∧ ∀ v ∈ C, v < G.nodes ∧ ∀ C' ∈ G.community, v ∈ C' → C' = C) ∧
    ∀ v < G.nodes, ∃ C ∈ G.community, v ∈ C := by
  unfold groundTruth at h
  obtain ⟨vec, ha, h⟩ := Py.bind_ok' h
  obtain ⟨⟨⟩, hc, h⟩ := Py.bind_ok' h
  obtain ⟨hlen, hcs, horig⟩ := assignCommunities_ok ha
  rw [List.length_replicate] at hlen hcs
  rw [checkCommunities_ok] at hc
  simp only [Nat.zero_add] at hc
  split at h
  · cases h
  rename_i hnone
  rw [Bool.not_eq_true] at hnone
  dsimp only at h
  split at h
  · cases h
  rename_i hv
  have hv : G.nodes = (graphOfEdges G.edges).vcount := not_not.mp hv
  injection h with h
  obtain ⟨rfl, rfl⟩ := Prod.mk.inj h
  have hvec := filterMap_id_of_some hnone
  set truth := vec.filterMap id with ht
  have hlen' : truth.length = G.nodes := by
    have := congrArg List.length hvec
    rw [List.length_map] at this
    omega
  have hget : ∀ (v k : Nat), truth[v]? = some k ↔ vec[v]? = some (some k) := by
    intro v k
    rw [hvec, List.getElem?_map]
    cases truth[v]? <;> simp
  have hor : ∀ (v k : Nat), truth[v]? = some k ↔ ∃ c, iteration[k]? = some c ∧ v ∈ c := by
    intro v k
    rw [hget]
    constructor
    · intro h
      rcases horig v k h with h0 | ⟨j, c, hj, hvc, rfl⟩
      · rw [List.getElem?_replicate] at h0
        split at h0 <;> simp at h0
      · exact ⟨c, by simpa using hj, hvc⟩
    · rintro ⟨c, hk, hvc⟩
      exact hc k c hk v hvc
  have htog : ∀ u < G.nodes, ∀ v < G.nodes, truth[u]? = truth[v]? ↔ Together G u v := by
    intro u hu v hv
    rw [iteration_mem hi]
    constructor
    · intro h
      have hu' := List.getElem?_eq_getElem (l := truth) (i := u) (by omega)
      obtain ⟨c, hk, huc⟩ := (hor u _).mp hu'
      obtain ⟨c', hk', hvc⟩ := (hor v _).mp (h ▸ hu')
      rw [hk] at hk'
      cases hk'
      exact ⟨_, c, hk, huc, hvc⟩
    · rintro ⟨j, c, hj, huc, hvc⟩
      rw [(hor u j).mpr ⟨c, hj, huc⟩, (hor v j).mpr ⟨c, hj, hvc⟩]
  have hKlen : iteration.length = G.community.dedup.length := by
    have := hi.1.length_eq
    rwa [List.length_map] at this
  refine ⟨rfl, hv.symm, hlen', ?_, htog, ?_, ?_⟩
  · intro k
    constructor
    · intro hk
      obtain ⟨v, hv⟩ := List.getElem?_of_mem hk
      obtain ⟨c, hc, -⟩ := (hor v k).mp hv
      rw [← hKlen]
      exact (List.getElem?_eq_some_iff.mp hc).1
    · intro hk
      rw [← hKlen] at hk
      have hk' := List.getElem?_eq_getElem hk
      obtain ⟨v, hv⟩ := List.exists_mem_of_ne_nil _ (hcs _ (List.getElem_mem hk)).1
      exact List.mem_of_getElem? ((hor v k).mpr ⟨_, hk', hv⟩)
  · intro C hC
    have : C ∈ iteration.map List.toFinset := hi.1.mem_iff.mpr (List.mem_dedup.mpr hC)
    obtain ⟨c, hcm, rfl⟩ := List.mem_map.mp this
    obtain ⟨hne, hb⟩ := hcs c hcm
    refine ⟨?_, fun v hv => ⟨hb v (by simpa using hv), fun C' hC' hv' => ?_⟩⟩
    · obtain ⟨v, hv⟩ := List.exists_mem_of_ne_nil _ hne
      exact ⟨v, by simpa using hv⟩
    · have : C' ∈ iteration.map List.toFinset := hi.1.mem_iff.mpr (List.mem_dedup.mpr hC')
      obtain ⟨c', hcm', rfl⟩ := List.mem_map.mp this
      obtain ⟨j, hj⟩ := List.getElem?_of_mem hcm
      obtain ⟨j', hj'⟩ := List.getElem?_of_mem hcm'
      have e1 := hc j c hj v (by simpa using hv)
      have e2 := hc j' c' hj' v (by simpa using hv')
      rw [e1] at e2
      have : j = j' := by simpa using e2
      subst this
      rw [hj] at hj'
      cases hj'
      rfl
  · intro v hv
    have hv' := List.getElem?_eq_getElem (l := truth) (i := v) (by omega)
    obtain ⟨C, hC, h1, -⟩ := (htog v hv v hv).mp rfl
    exact ⟨C, hC, h1⟩

/-- **C89 (any iteration order).** The ground truth partition does not depend on the order in which Python iterates over the
communities. -/
theorem c89_iteration_order (hi : IterationOf G.community iteration) {iteration' : List (List Nat)}
    (hi' : IterationOf G.community iteration') {H H' : Graph ℝ} {truth truth' : List Nat}
    (h : groundTruth G iteration = .ok (H, truth)) (h' : groundTruth G iteration' = .ok (H', truth')) :
    H = H' ∧ SamePartition truth truth' := by
  obtain ⟨h1, -, h3, -, h5, -⟩ := c89_ground_truth hi h
  obtain ⟨h1', -, h3', -, h5', -⟩ := c89_ground_truth hi' h'
  exact ⟨h1.trans h1'.symm, h3.trans h3'.symm, fun i j hi hj => by
    rw [h5 i (by omega) j (by omega), h5' i (by omega) j (by omega)]⟩

theorem foldl_endpoint_le {es : List (Nat × Nat)} {n m : Nat} (hm : m ≤ n) (h : ∀ e ∈ es, e.1 < n ∧ e.2 < n) :
    es.foldl (fun n e => max n (max (e.1 + 1) (e.2 + 1))) m ≤ n := by
  induction es generalizing m with
  | nil => exact hm
  | cons e es ih =>
    rw [List.foldl_cons]
    have := h e (by simp)
    exact ih (by omega) fun e' he' => h e' (by simp [he'])

theorem le_foldl_endpoint {es : List (Nat × Nat)} {m : Nat} :
    m ≤ es.foldl (fun n e => max n (max (e.1 + 1) (e.2 + 1))) m ∧
    ∀ e ∈ es, e.1 < es.foldl (fun n e => max n (max (e.1 + 1) (e.2 + 1))) m ∧
      e.2 < es.foldl (fun n e => max n (max (e.1 + 1) (e.2 + 1))) m := by
  induction es generalizing m with
  | nil => simp
  | cons e es ih =>
    rw [List.foldl_cons]
    obtain ⟨h1, h2⟩ := ih (m := max m (max (e.1 + 1) (e.2 + 1)))
    refine ⟨by omega, fun e' he' => ?_⟩
    rcases List.mem_cons.mp he' with rfl | he'
    · omega
    · exact h2 e' he'

/-- **C89 (acceptance).** A connected graph on at least two nodes with communities as networkx promises is accepted, in every
iteration order; a disconnected one, or a failed generation, gives `(None, None)`. -/
theorem c89_accepted (hi : IterationOf G.community iteration) (hp : Planted G)
    (he : ∀ e ∈ G.edges, e.1 < G.nodes ∧ e.2 < G.nodes) (hn : 2 ≤ G.nodes) :
    lfrBenchmark none iteration = .ok none ∧
    (Graph.IsConnected (⟨G.nodes, false, G.edges, none⟩ : Graph ℝ) →
      ∃ truth, lfrBenchmark (some G) iteration = .ok (some (graphOfEdges G.edges, truth)) ∧
        groundTruth G iteration = .ok (graphOfEdges G.edges, truth)) ∧
    (¬ Graph.IsConnected (⟨G.nodes, false, G.edges, none⟩ : Graph ℝ) → lfrBenchmark (some G) iteration = .ok none) := by
  refine ⟨rfl, fun hc => ?_, fun hc => ?_⟩
  swap
  · unfold lfrBenchmark
    simp only
    rw [if_neg (by omega), if_pos hc]
  -- the communities of the iteration, as members of the attribute
  have hmem : ∀ c ∈ iteration, c.toFinset ∈ G.community := fun c hc =>
    List.mem_dedup.mp (hi.1.mem_iff.mp (List.mem_map.mpr ⟨c, hc, rfl⟩))
  have hin : ∀ c ∈ iteration, ∀ v ∈ c, G.community[v]? = some c.toFinset := by
    intro c hc v hv
    obtain ⟨u, hu⟩ := List.getElem?_of_mem (hmem c hc)
    exact (hp.2 u _ hu).2 v (by simpa using hv)
  have hlt : ∀ c ∈ iteration, ∀ v ∈ c, v < G.nodes := by
    intro c hc v hv
    rw [← hp.1]
    exact (List.getElem?_eq_some_iff.mp (hin c hc v hv)).1
  have hne : ∀ c ∈ iteration, c ≠ [] := by
    intro c hc h0
    obtain ⟨u, hu⟩ := List.getElem?_of_mem (hmem c hc)
    have := (hp.2 u _ hu).1
    rw [h0] at this
    simp at this
  have hnd : iteration.Pairwise fun a b => a.toFinset ≠ b.toFinset := by
    have : (iteration.map List.toFinset).Nodup := hi.1.nodup_iff.mpr (List.nodup_dedup _)
    rw [List.Nodup, List.pairwise_map] at this
    exact this
  have hd : iteration.Pairwise List.Disjoint := by
    refine List.Pairwise.imp_of_mem (fun {a b} ha hb hab => ?_) hnd
    intro v hva hvb
    have e1 := hin a ha v hva
    rw [hin b hb v hvb] at e1
    exact hab (Option.some.inj e1).symm
  obtain ⟨vec, ha, hl, hv, -⟩ := assignCommunities_disjoint (i := 0) (vec := List.replicate G.nodes none) hne
    (by simpa using hlt) hd
  rw [List.length_replicate] at hl
  have hcheck : checkCommunities 0 iteration vec = .ok () := checkCommunities_ok.mpr hv
  have hfull : vec.any Option.isNone = false := by
    rw [List.any_eq_false]
    intro x hx
    obtain ⟨u, hu⟩ := List.getElem?_of_mem hx
    have hun : u < G.nodes := by rw [← hl]; exact (List.getElem?_eq_some_iff.mp hu).1
    have hC := List.getElem?_eq_getElem (l := G.community) (i := u) (by rw [hp.1]; exact hun)
    obtain ⟨j, c, hj, huc, -⟩ := (iteration_mem hi u u).mp ⟨_, List.mem_of_getElem? hC, (hp.2 u _ hC).1, (hp.2 u _ hC).1⟩
    rw [hv j c hj u huc] at hu
    cases hu
    simp
  have hvc : G.nodes = (graphOfEdges G.edges).vcount := by
    refine le_antisymm ?_ (foldl_endpoint_le (Nat.zero_le _) he)
    -- the last vertex is connected to vertex 0
    have hr := hc.2 (G.nodes - 1) (by simp only; omega) 0 (by simp only; omega)
    rcases Relation.ReflTransGen.cases_head hr with h0 | ⟨v, hs, -⟩
    · omega
    · have := (le_foldl_endpoint (es := G.edges) (m := 0)).2
      unfold graphOfEdges
      dsimp only
      rcases hs with hs | ⟨-, hs⟩
      · have := (this _ hs).1
        dsimp only at this
        omega
      · have := (this _ hs).2
        dsimp only at this
        omega
  have hgt : groundTruth G iteration = .ok (graphOfEdges G.edges, vec.filterMap id) := by
    unfold groundTruth
    rw [ha, Py.ok_bind, hcheck, Py.ok_bind]
    dsimp only
    rw [if_neg (by rw [hfull]; simp), if_neg (by simpa using hvc)]
    rfl
  refine ⟨_, ?_, hgt⟩
  unfold lfrBenchmark
  simp only
  rw [if_neg (by omega), if_neg (by simpa using hc), hgt]
  rfl

/-! ### Scores of a method -/

section
variable {env : LeidenEnv} {penv : PruneEnv} {G : Graph ℝ} {truth : List Nat} {runs : Nat} {method : String} {lo hi : ℝ}
  {w : World} {scores : List (Fl ℝ)}

theorem repeatedLeiden_graph {G H : Graph ℝ} (hfix : defaulted env.test G = G) {gammas : List (Fl ℝ)} {S T : Finset (List Nat)}
    (h : (setComprehension (singlelayerLeiden env) G gammas T w).1 = .ok (S, H)) : H = G := by
  induction gammas generalizing T w with
  | nil => cases h; rfl
  | cons γ gammas ih =>
    have hrun : singlelayerLeiden env G γ w =
        ((env.findPartition w.calls G γ).map fun c => (c, G), { w with calls := w.calls + 1 }) := by
      unfold singlelayerLeiden
      rw [ensureWeight_ecount, Prog.lift_ok, Prog.bind_eq, hfix]
      simp only [Prog.optimise]
      cases env.findPartition w.calls G γ <;> rfl
    unfold setComprehension at h
    rw [Prog.bind_eq, hrun] at h
    cases hf : env.findPartition w.calls G γ with
    | error e => rw [hf] at h; cases h
    | ok c =>
      rw [hf] at h
      simp only [Except.map, sortedTuple_eq, Prog.lift_ok] at h
      exact ih h

theorem defaulted_idem (test : Graph ℝ → Bool) (G : Graph ℝ) : defaulted test (defaulted test G) = defaulted test G := by
  by_cases h : test G = true
  · have : defaulted test G = G := by unfold defaulted; rw [if_pos h]
    rw [this, this]
  · have h1 : defaulted test G = { G with weight := some (List.replicate G.ecount 1) } := by unfold defaulted; rw [if_neg h]
    rw [h1]
    unfold defaulted
    split <;> rfl

theorem scoresOf {ps : List (List Nat)} (hl : ∀ p ∈ ps, truth.length = p.length)
    (h : (ps.mapM fun p => nmi truth p) = .ok scores) : ScoresOf truth ps scores := by
  unfold ScoresOf
  obtain ⟨h1, h2⟩ := mapM_eq_ok_iff.mp h
  rw [List.forall₂_iff_get]
  refine ⟨h1.symm, fun i hi hi' => ?_⟩
  have hm := List.get_mem ps ⟨i, hi⟩
  have he := h2 i _ _ (List.getElem?_eq_getElem hi) (List.getElem?_eq_getElem hi')
  refine ⟨he, ?_⟩
  obtain ⟨r, hr, h0, h1⟩ := c75_range (hl _ hm)
  have hs : scores.get ⟨i, hi'⟩ = .fin r := by
    simp only [List.get_eq_getElem] at hr ⊢
    rw [hr] at he
    exact (Except.ok.inj he).symm
  refine ⟨r, hs, h0, h1, ?_⟩
  rw [← c75_one, hr]
  constructor
  · rintro rfl; rfl
  · intro h; injection h with h; injection h

/-- What every method has in common. -/
theorem runMethod_facts (hte : env.test = penv.test) (hs : SoundPruneEnv penv) (hG : G.WF) (hP : ProducesPartitions env)
    (h : runMethod env penv G truth runs method lo hi w = (some (.ok scores) : Option _)) :
    ∃ g gammas S found, gammaEstimate penv.test G truth = .ok (some g, defaulted penv.test G) ∧
      methodGammas method g runs lo hi = .ok gammas ∧
      AllFound (fun j γ => env.findPartition (w.calls + j) (defaulted env.test G) γ) gammas found ∧
      (∀ c ∈ found, c.length = G.vcount) ∧
      CanonicalSetOf S found ∧ Distinct (penv.setOrder S.toList) found ∧
      (repeatedLeiden env (defaulted penv.test G) gammas w).1 = .ok (S, defaulted penv.test G) := by
  unfold runMethod at h
  obtain ⟨⟨e, G'⟩, he, h⟩ := Run.bind_ok.mp h
  rw [Run.ofPy_ok] at he
  have hG' : G' = defaulted penv.test G := by
    have := gammaEstimate_graph he
    rw [ensureWeight_size hG] at this
    exact (Except.ok.inj this).symm
  subst hG'
  dsimp only at h
  cases e with
  | none => cases h
  | some g =>
    obtain ⟨gammas, hg, h⟩ := Run.bind_ok.mp h
    rw [Run.ofPy_ok] at hg
    obtain ⟨⟨S, H⟩, hS, h⟩ := Run.bind_ok.mp h
    rw [Run.ofPy_ok] at hS
    have hfix : defaulted env.test (defaulted penv.test G) = defaulted penv.test G := by rw [hte]; exact defaulted_idem _ _
    have hH : H = defaulted penv.test G := repeatedLeiden_graph hfix hS
    subst hH
    obtain ⟨found, hf, hc⟩ := (c51_serial (env := env) (defaulted penv.test G) gammas w S).mp (by rw [hS]; rfl)
    rw [hfix] at hf
    refine ⟨g, gammas, S, found, he, hg, by rw [hte]; exact hf, fun c hcm => ?_, hc, ⟨hs.setNodup _, ?_, ?_⟩, hS⟩
    · obtain ⟨j, hj⟩ := List.getElem?_of_mem hcm
      have hjl : j < gammas.length := by rw [← hf.1]; exact (List.getElem?_eq_some_iff.mp hj).1
      have := hf.2 j _ c (List.getElem?_eq_getElem hjl) hj
      rw [hP.1 _ _ _ _ this]
      unfold defaulted
      split <;> rfl
    · intro c hcm
      obtain ⟨x, hx, hs'⟩ := hc.1 c hcm
      exact ⟨x, (hs.setMem _ _).mpr (Finset.mem_toList.mpr hx), hs'⟩
    · intro p hp
      exact hc.2 p (Finset.mem_toList.mp ((hs.setMem _ _).mp hp))

theorem linspace_get {a b : ℝ} {n i : Nat} (hi : i < n) : (linspace a b n)[i]? = some (sweepGamma a b n i) := by
  unfold linspace sweepGamma
  rw [List.getElem?_map, List.getElem?_range hi]
  simp only [Option.map_some, Option.some.injEq]
  ring

theorem linspace_length (a b : ℝ) (n : Nat) : (linspace a b n).length = n := by simp [linspace]

theorem foundAt_sweep {found : List (List Nat)}
    (h : AllFound (fun j γ => env.findPartition (w.calls + j) (defaulted env.test G) γ) ((linspace lo hi runs).map .fin) found) :
    FoundAt env G w runs (fun (i : Nat) => .fin (sweepGamma lo hi runs i)) found := by
  obtain ⟨h1, h2⟩ := h
  rw [List.length_map, linspace_length] at h1
  refine ⟨h1, fun i c hc => ?_⟩
  have hi : i < runs := by rw [← h1]; exact (List.getElem?_eq_some_iff.mp hc).1
  exact h2 i _ c (by rw [List.getElem?_map, linspace_get hi]; rfl) hc

theorem sameLength {p c : List Nat} (h : SamePartition p c) : p.length = c.length := h.1

/-- **C89 (the baselines).** "gamma sweep" scores every different partition found at the evenly spaced resolutions, once. -/
theorem c89_gamma_sweep (hte : env.test = penv.test) (hs : SoundPruneEnv penv) (hG : G.WF) (hP : ProducesPartitions env)
    (ht : truth.length = G.vcount)
    (h : runMethod env penv G truth runs "gamma sweep" lo hi w = (some (.ok scores) : Option _)) :
    ∃ found ps, FoundAt env G w runs (fun (i : Nat) => .fin (sweepGamma lo hi runs i)) found ∧ Distinct ps found ∧
      ScoresOf truth ps scores := by
  obtain ⟨g, gammas, S, found, he, hg, hf, hl, hc, hd, hS⟩ := runMethod_facts hte hs hG hP h
  unfold runMethod at h
  rw [he] at h
  have hg' : gammas = (linspace lo hi runs).map .fin := by
    simp only [methodGammas, or_true, if_true] at hg
    exact (Except.ok.inj hg).symm
  subst hg'
  obtain ⟨_, h0, h⟩ := Run.bind_ok.mp h
  cases h0
  dsimp only at h
  obtain ⟨_, h0, h⟩ := Run.bind_ok.mp h
  rw [Run.ofPy_ok, hg] at h0
  cases h0
  obtain ⟨_, h0, h⟩ := Run.bind_ok.mp h
  rw [Run.ofPy_ok, hS] at h0
  cases h0
  rw [if_neg (by decide), if_neg (by decide), Run.ofPy_ok] at h
  refine ⟨found, _, foundAt_sweep hf, hd, scoresOf (fun p hp => ?_) h⟩
  obtain ⟨-, c, hcm, hsame⟩ := hd.2.2 p hp
  rw [sameLength hsame, hl c hcm, ht]

/-- **C89 (the baselines).** "ground truth gamma" scores every different partition found at the ground truth's estimate,
once. -/
theorem c89_ground_truth_gamma (hte : env.test = penv.test) (hs : SoundPruneEnv penv) (hG : G.WF) (hP : ProducesPartitions env)
    (ht : truth.length = G.vcount)
    (h : runMethod env penv G truth runs "ground truth gamma" lo hi w = (some (.ok scores) : Option _)) :
    ∃ g H, gammaEstimate env.test G truth = .ok (some g, H) ∧
      ∃ found ps, FoundAt env G w runs (fun _ => g) found ∧ Distinct ps found ∧ ScoresOf truth ps scores := by
  obtain ⟨g, gammas, S, found, he, hg, hf, hl, hc, hd, hS⟩ := runMethod_facts hte hs hG hP h
  unfold runMethod at h
  rw [he] at h
  have hg' : gammas = List.replicate runs g := by
    unfold methodGammas at hg
    rw [if_neg (by decide), if_pos rfl] at hg
    exact (Except.ok.inj hg).symm
  subst hg'
  obtain ⟨_, h0, h⟩ := Run.bind_ok.mp h
  cases h0
  dsimp only at h
  obtain ⟨_, h0, h⟩ := Run.bind_ok.mp h
  rw [Run.ofPy_ok, hg] at h0
  cases h0
  obtain ⟨_, h0, h⟩ := Run.bind_ok.mp h
  rw [Run.ofPy_ok, hS] at h0
  cases h0
  rw [if_neg (by decide), if_neg (by decide), Run.ofPy_ok] at h
  obtain ⟨f1, f2⟩ := hf
  rw [List.length_replicate] at f1
  refine ⟨g, _, by rw [hte]; exact he, found, _, ⟨f1, fun i c hcm => ?_⟩, hd, scoresOf (fun p hp => ?_) h⟩
  · have hi : i < runs := by rw [← f1]; exact (List.getElem?_eq_some_iff.mp hcm).1
    exact f2 i g c (by rw [List.getElem?_replicate, if_pos hi]) hcm
  · obtain ⟨-, c, hcm, hsame⟩ := hd.2.2 p hp
    rw [sameLength hsame, hl c hcm, ht]

theorem pyGet_some {α : Type} {l : List α} {i : Nat} {x y : α} (hx : l[i]? = some x) (h : pyGet l i = .ok y) : y = x := by
  unfold pyGet at h
  rw [hx] at h
  exact (Except.ok.inj h).symm

theorem sweep_first (hr : 2 ≤ runs) : sweepGamma lo hi runs 0 = lo := by simp [sweepGamma]

theorem sweep_last (hr : 2 ≤ runs) : sweepGamma lo hi runs (runs - 1) = hi := by
  have h2 : (2 : ℝ) ≤ runs := by exact_mod_cast hr
  unfold sweepGamma
  rw [Nat.cast_sub (by omega), Nat.cast_one, div_self (by linarith)]
  ring

theorem defaulted_facts (test : Graph ℝ → Bool) (G : Graph ℝ) :
    (defaulted test G).vcount = G.vcount ∧ (defaulted test G).edges = G.edges ∧
      (defaulted test G).directed = G.directed ∧ (defaulted test G).ecount = G.ecount := by
  unfold defaulted
  split <;> simp [Graph.ecount]

/-- The two pruning methods up to the pruning itself. -/
theorem pruning_facts (hte : env.test = penv.test) (hs : SoundPruneEnv penv) (hG : G.WF) (hP : ProducesPartitions env)
    (ht : truth.length = G.vcount) (hr : 2 ≤ runs)
    (hm : method = "modularity pruning" ∨ method = "modularity pruning ground truth K")
    (h : runMethod env penv G truth runs method lo hi w = (some (.ok scores) : Option _)) :
    ∃ restrict found ps kept H, FoundAt env G w runs (fun (i : Nat) => .fin (sweepGamma lo hi runs i)) found ∧ Distinct ps found ∧
      (method = "modularity pruning" → restrict = none) ∧
      (method ≠ "modularity pruning" → restrict = some truth.dedup.length) ∧ (∀ p ∈ ps, p.length = G.vcount) ∧
      pruneToStable penv (defaulted penv.test G) (.memberships ps) lo hi restrict true = (some (.ok (kept, H)) : Option _) ∧
      (kept.mapM fun p => nmi truth p) = .ok scores := by
  obtain ⟨g, gammas, S, found, he, hg, hf, hl, hc, hd, hS⟩ := runMethod_facts hte hs hG hP h
  have hg' : gammas = (linspace lo hi runs).map .fin := by
    unfold methodGammas at hg
    rw [if_pos (by rcases hm with rfl | rfl <;> simp)] at hg
    exact (Except.ok.inj hg).symm
  subst hg'
  have hlen : ∀ p ∈ penv.setOrder S.toList, p.length = G.vcount := by
    intro p hp
    obtain ⟨-, c, hcm, hsame⟩ := hd.2.2 p hp
    rw [sameLength hsame, hl c hcm]
  unfold runMethod at h
  rw [he] at h
  obtain ⟨_, h0, h⟩ := Run.bind_ok.mp h
  cases h0
  dsimp only at h
  obtain ⟨_, h0, h⟩ := Run.bind_ok.mp h
  rw [Run.ofPy_ok, hg] at h0
  cases h0
  obtain ⟨_, h0, h⟩ := Run.bind_ok.mp h
  rw [Run.ofPy_ok, hS] at h0
  cases h0
  have hwin : ∀ {a b : ℝ}, Run.ofPy (pyGet (linspace lo hi runs) 0) = (some (.ok a) : Option _) →
      Run.ofPy (pyGet (linspace lo hi runs) ((linspace lo hi runs).length - 1)) = (some (.ok b) : Option _) →
      a = lo ∧ b = hi := by
    intro a b ha hb
    rw [Run.ofPy_ok] at ha hb
    rw [linspace_length] at hb
    rw [pyGet_some (linspace_get (by omega)) ha, pyGet_some (linspace_get (by omega)) hb, sweep_first hr, sweep_last hr]
    exact ⟨rfl, rfl⟩
  split at h
  · rename_i hmp
    obtain ⟨a, ha, h⟩ := Run.bind_ok.mp h
    obtain ⟨b, hb, h⟩ := Run.bind_ok.mp h
    obtain ⟨ea, eb⟩ := hwin ha hb
    rw [ea, eb] at h
    obtain ⟨⟨kept, H⟩, hk, h⟩ := Run.bind_ok.mp h
    rw [Run.ofPy_ok] at h
    exact ⟨none, found, _, kept, H, foundAt_sweep hf, hd, fun _ => rfl, fun hn => absurd hmp hn, hlen, hk, h⟩
  · rename_i hmp
    rw [if_pos (hm.resolve_left hmp)] at h
    obtain ⟨K, hK, h⟩ := Run.bind_ok.mp h
    rw [Run.ofPy_ok] at hK
    have hKv : K = truth.dedup.length := by
      unfold numCommunities at hK
      split at hK
      · cases hK
      · split at hK
        · obtain rfl := Except.ok.inj hK
          rw [List.dedup_map_of_injective (fun a b hab => Int.ofNat.inj hab), List.length_map]
        · cases hK
    subst hKv
    obtain ⟨a, ha, h⟩ := Run.bind_ok.mp h
    obtain ⟨b, hb, h⟩ := Run.bind_ok.mp h
    obtain ⟨ea, eb⟩ := hwin ha hb
    rw [ea, eb] at h
    obtain ⟨⟨kept, H⟩, hk, h⟩ := Run.bind_ok.mp h
    rw [Run.ofPy_ok] at h
    exact ⟨_, found, _, kept, H, foundAt_sweep hf, hd, fun hn => absurd hn hmp, fun _ => rfl, hlen, hk, h⟩

/-- The canonical form of a canonical tuple is the tuple itself. -/
theorem canon_of_first {p : List Nat} (h : FirstAppearanceOrder p) {c : List Nat} (hc : sortedTuple p = .ok c) : c = p := by
  rw [sortedTuple_eq] at hc
  obtain rfl := Except.ok.inj hc
  exact canon_of_firstAppearance h

/-- **C89 (pruning).** "modularity pruning" scores, once each, partitions found in the sweep whose estimate lies in the window
and which no partition found beats there. -/
theorem c89_pruning (hte : env.test = penv.test) (hs : SoundPruneEnv penv) (hG : G.WF) (hP : ProducesPartitions env)
    (ht : truth.length = G.vcount) (hr : 2 ≤ runs)
    (h : runMethod env penv G truth runs "modularity pruning" lo hi w = (some (.ok scores) : Option _)) :
    ∃ found ps kept, FoundAt env G w runs (fun (i : Nat) => .fin (sweepGamma lo hi runs i)) found ∧ Distinct ps found ∧
      kept.Nodup ∧ (∀ p ∈ kept, p ∈ ps ∧ StableAmong env.test G lo hi ps p) ∧ ScoresOf truth kept scores := by
  obtain ⟨restrict, found, ps, kept, H, hf, hd, hn, -, hl, hk, hsc⟩ := pruning_facts hte hs hG hP ht hr (.inl rfl) h
  obtain rfl := hn rfl
  have hWF := ensureWeight_wf hG (ensureWeight_size (test := penv.test) hG)
  have hl' : ∀ p ∈ ps, p.length = (defaulted penv.test G).vcount := by rw [(defaulted_facts _ _).1]; exact hl
  have hsound := c38_sound hs hWF hl' hk
  have hmem : ∀ c ∈ kept, c ∈ ps := by
    intro c hc
    obtain ⟨⟨p, hp, hpc⟩, -⟩ := hsound c hc
    rw [canon_of_first (hd.2.2 p hp.1).1 hpc]
    exact hp.1
  refine ⟨found, ps, kept, hf, hd, (c38_no_duplicates hs hWF hl' hk).1, fun c hc => ⟨hmem c hc, ?_⟩, scoresOf (fun p hp => ?_) hsc⟩
  · obtain ⟨-, γ, hγ, l, u, hb⟩ := hsound c hc
    rw [gammaEstimate_thread (ensureWeight_size hG), ← hte] at hγ
    refine ⟨γ, H, hγ, l, u, fun q hq => ?_⟩
    have := hb q ⟨hq, fun K hK => by cases hK⟩
    rwa [modularity_defaulted, modularity_defaulted] at this
  · rw [hl p (hmem p hp), ht]

/-- **C89 (pruning with the ground truth's number of communities).** "modularity pruning ground truth K" scores partitions
found in the sweep that have as many communities as the ground truth, whose estimate lies in the window and which no such
partition beats there. -/
theorem c89_pruning_K (hte : env.test = penv.test) (hs : SoundPruneEnv penv) (hG : G.WF) (hP : ProducesPartitions env)
    (ht : truth.length = G.vcount) (hr : 2 ≤ runs)
    (h : runMethod env penv G truth runs "modularity pruning ground truth K" lo hi w = (some (.ok scores) : Option _)) :
    ∃ found ps kept, FoundAt env G w runs (fun (i : Nat) => .fin (sweepGamma lo hi runs i)) found ∧ Distinct ps found ∧
      kept.Nodup ∧ (∀ p ∈ kept, p ∈ ps ∧ p.dedup.length = truth.dedup.length ∧
        StableAmong env.test G lo hi (ps.filter fun q => decide (q.dedup.length = truth.dedup.length)) p) ∧
      ScoresOf truth kept scores := by
  obtain ⟨restrict, found, ps, kept, H, hf, hd, -, hn, hl, hk, hsc⟩ := pruning_facts hte hs hG hP ht hr (.inr rfl) h
  obtain rfl := hn (by decide)
  have hWF := ensureWeight_wf hG (ensureWeight_size (test := penv.test) hG)
  have hl' : ∀ p ∈ ps, p.length = (defaulted penv.test G).vcount := by rw [(defaulted_facts _ _).1]; exact hl
  have hsound := c38_sound hs hWF hl' hk
  have hmem : ∀ c ∈ kept, c ∈ ps := by
    intro c hc
    obtain ⟨⟨p, hp, hpc⟩, -⟩ := hsound c hc
    rw [canon_of_first (hd.2.2 p hp.1).1 hpc]
    exact hp.1
  refine ⟨found, ps, kept, hf, hd, (c38_no_duplicates hs hWF hl' hk).1,
    fun c hc => ⟨hmem c hc, c42_number_of_communities hs hWF hl' hk c hc, ?_⟩, scoresOf (fun p hp => ?_) hsc⟩
  · obtain ⟨-, γ, hγ, l, u, hb⟩ := hsound c hc
    rw [gammaEstimate_thread (ensureWeight_size hG), ← hte] at hγ
    refine ⟨γ, H, hγ, l, u, fun q hq => ?_⟩
    obtain ⟨hq1, hq2⟩ := List.mem_filter.mp hq
    have := hb q ⟨hq1, fun K hK => by cases hK; simpa using hq2⟩
    rwa [modularity_defaulted, modularity_defaulted] at this
  · rw [hl p (hmem p hp), ht]

/-- **C89 (errors).** Ground truth communities without an estimate raise `TypeError` whatever the method – the `ValueError`
documented for them is never reached –, and otherwise an unknown method raises `ValueError`. -/
theorem c89_errors {e : Option (Fl ℝ)} {H : Graph ℝ} (he : gammaEstimate penv.test G truth = .ok (e, H)) :
    (e = none → runMethod env penv G truth runs method lo hi w = (some (.error .typeError) : Option _)) ∧
    (e ≠ none → method ∉ ["modularity pruning", "modularity pruning ground truth K", "gamma sweep", "ground truth gamma"] →
      runMethod env penv G truth runs method lo hi w = (some (.error (.valueError s!"Option {method} is not valid")) : Option _)) := by
  constructor
  · rintro rfl
    unfold runMethod
    rw [he]
    rfl
  · intro hne hm
    obtain ⟨g, rfl⟩ := Option.ne_none_iff_exists'.mp hne
    simp only [List.mem_cons, List.not_mem_nil, or_false, not_or] at hm
    unfold runMethod
    rw [he]
    have : methodGammas method g runs lo hi = .error (.valueError s!"Option {method} is not valid") := by
      unfold methodGammas
      rw [if_neg (by tauto), if_neg hm.2.2.2]
    change (Run.ofPy (methodGammas method g runs lo hi) >>= _) = _
    rw [this]
    rfl

theorem foundAt_unique {gamma : Nat → Fl ℝ} {f f' : List (List Nat)} (h : FoundAt env G w runs gamma f)
    (h' : FoundAt env G w runs gamma f') : f = f' := by
  refine List.ext_getElem (h.1.trans h'.1.symm) fun i h1 h2 => ?_
  have e1 := h.2 i _ (List.getElem?_eq_getElem h1)
  rw [h'.2 i _ (List.getElem?_eq_getElem h2)] at e1
  exact (Except.ok.inj e1).symm

theorem distinct_mem {ps ps' found : List (List Nat)} (h : Distinct ps found) (h' : Distinct ps' found) {p : List Nat}
    (hp : p ∈ ps) : p ∈ ps' := by
  obtain ⟨hf, c, hc, hs⟩ := h.2.2 p hp
  obtain ⟨p', hp', hs'⟩ := h'.2.1 c hc
  rw [firstAppearance_unique hf (h'.2.2 p' hp').1 (hs.trans hs'.symm)]
  exact hp'

/-- **C89 (pruning only discards).** In a process with the same history, every score reported by the pruning method is among
the scores of the sweep it prunes. -/
theorem c89_pruned_scores_in_sweep {penv' : PruneEnv} (hte : env.test = penv.test) (hte' : env.test = penv'.test)
    (hs : SoundPruneEnv penv) (hs' : SoundPruneEnv penv') (hG : G.WF) (hP : ProducesPartitions env)
    (ht : truth.length = G.vcount) (hr : 2 ≤ runs) {scores' : List (Fl ℝ)}
    (h : runMethod env penv G truth runs "modularity pruning" lo hi w = (some (.ok scores) : Option _))
    (h' : runMethod env penv' G truth runs "gamma sweep" lo hi w = (some (.ok scores') : Option _)) :
    scores.length ≤ scores'.length ∧ ∀ x ∈ scores, x ∈ scores' := by
  obtain ⟨found, ps, kept, hf, hd, hn, hk, hsc⟩ := c89_pruning hte hs hG hP ht hr h
  obtain ⟨found', ps', hf', hd', hsc'⟩ := c89_gamma_sweep hte' hs' hG hP ht h'
  obtain rfl := foundAt_unique hf hf'
  have hsub : ∀ p ∈ kept, p ∈ ps' := fun p hp => distinct_mem hd hd' (hk p hp).1
  refine ⟨?_, fun x hx => ?_⟩
  · rw [← hsc.length_eq, ← hsc'.length_eq]
    exact (List.subperm_of_subset hn hsub).length_le
  · obtain ⟨i, hi⟩ := List.getElem?_of_mem hx
    obtain ⟨hix, rfl⟩ := List.getElem?_eq_some_iff.mp hi
    rw [ScoresOf, List.forall₂_iff_get] at hsc hsc'
    have hik : i < kept.length := by rw [hsc.1]; exact hix
    have e1 := (hsc.2 i hik hix).1
    obtain ⟨j, hj⟩ := List.getElem?_of_mem (hsub _ (List.get_mem kept ⟨i, hik⟩))
    obtain ⟨hjp, hje⟩ := List.getElem?_eq_some_iff.mp hj
    have hjs : j < scores'.length := by rw [← hsc'.1]; exact hjp
    have e2 := (hsc'.2 j hjp hjs).1
    simp only [List.get_eq_getElem] at e1 e2 hje
    rw [hje, e1] at e2
    rw [Except.ok.inj e2]
    exact List.getElem_mem hjs

/-- **C89 (recovery).** On an undirected graph that counts as unweighted: if the sweep finds the ground truth, its estimate
lies strictly inside the window, and every other partition found has smaller modularity there, then "modularity pruning"
reports the score 1. -/
theorem c89_recovers (hte : env.test = penv.test) (hs : SoundPruneEnv penv) (hG : G.WF) (hP : ProducesPartitions env)
    (ht : truth.length = G.vcount) (hr : 2 ≤ runs) (hdir : G.directed = false) (hm : 0 < G.ecount)
    (hu : CountsAsUnweighted env.test G) {γ : ℝ} (hγ : HasEstimate env.test G truth γ) (h0 : lo < γ) (h1 : γ < hi)
    {i : Nat} (hir : i < runs) {c : List Nat}
    (hc : env.findPartition (w.calls + i) (defaulted env.test G) (.fin (sweepGamma lo hi runs i)) = .ok c)
    (hsame : SamePartition c truth)
    (hbest : ∀ j < runs, ∀ q, env.findPartition (w.calls + j) (defaulted env.test G) (.fin (sweepGamma lo hi runs j)) = .ok q →
      SamePartition q truth ∨ modularity G γ q < modularity G γ truth)
    (h : runMethod env penv G truth runs "modularity pruning" lo hi w = (some (.ok scores) : Option _)) :
    .fin 1 ∈ scores := by
  obtain ⟨restrict, found, ps, kept, H, hf, hd, hn, -, hl, hk, hsc⟩ := pruning_facts hte hs hG hP ht hr (.inl rfl) h
  obtain rfl := hn rfl
  have hWF := ensureWeight_wf hG (ensureWeight_size (test := penv.test) hG)
  obtain ⟨dv, de, dd, dm⟩ := defaulted_facts penv.test G
  have hl' : ∀ p ∈ ps, p.length = (defaulted penv.test G).vcount := by rw [dv]; exact hl
  have hcf : c ∈ found := by
    have hif : i < found.length := by rw [hf.1]; exact hir
    have := hf.2 i _ (List.getElem?_eq_getElem hif)
    rw [hc] at this
    rw [Except.ok.inj this]
    exact List.getElem_mem hif
  obtain ⟨p, hp, hpc⟩ := hd.2.1 c hcf
  have hpt : SamePartition p truth := hpc.trans hsame
  have hlp : p.length = G.vcount := hl p hp
  have hcu : CountsAsUnweighted penv.test (defaulted penv.test G) := by
    intro _
    unfold UnitWeights defaulted
    split
    · rename_i h3; rw [← hte] at h3; exact hu h3
    · rfl
  have hest : HasEstimate penv.test (defaulted penv.test G) p γ := by
    obtain ⟨c', G', e1, e2⟩ := hγ
    refine ⟨c', G', ?_, ?_⟩
    · rw [sortedTuple_eq] at e1 ⊢
      rw [(canon_eq_iff p truth).mpr hpt, e1]
    · rw [gammaEstimate_thread (ensureWeight_size hG), ← hte]; exact e2
  have hmod : ∀ q : List Nat, q.length = G.vcount → ∀ q' : List Nat, SamePartition q q' → ∀ g, modularity G g q = modularity G g q' :=
    fun q hq q' hqq g => modularity_same hqq hq g
  have hother : ∀ q ∈ ps, SamePartition q truth ∨ modularity G γ q < modularity G γ truth := by
    intro q hq
    obtain ⟨-, c', hc', hs'⟩ := hd.2.2 q hq
    obtain ⟨j, hj⟩ := List.getElem?_of_mem hc'
    have hjr : j < runs := by rw [← hf.1]; exact (List.getElem?_eq_some_iff.mp hj).1
    rcases hbest j hjr c' (hf.2 j c' hj) with h2 | h2
    · exact .inl (hs'.trans h2)
    · right
      rw [hmod q (hl q hq) c' hs']
      exact h2
  obtain ⟨d, hdk, hsm⟩ := c39_complete hs hWF (dd.trans hdir) (by rw [dm]; exact hm) hcu hl' hk ⟨hp, fun K hK => by cases hK⟩ hest h0 h1
    (by
      rintro q ⟨hq, -⟩ hns
      rw [modularity_defaulted, modularity_defaulted, hmod p hlp truth hpt]
      rcases hother q hq with h2 | h2
      · exact absurd (fun g => by
          rw [modularity_defaulted, modularity_defaulted, hmod q (hl q hq) p (h2.trans hpt.symm)]) hns
      · exact h2)
  have hdps : d ∈ ps := by
    obtain ⟨⟨p', hp', hpc'⟩, -⟩ := c38_sound hs hWF hl' hk d hdk
    rw [canon_of_first (hd.2.2 p' hp'.1).1 hpc']
    exact hp'.1
  have hdt : SamePartition d truth := by
    rcases hother d hdps with h2 | h2
    · exact h2
    · exfalso
      have := hsm γ
      rw [modularity_defaulted, modularity_defaulted, hmod p hlp truth hpt] at this
      linarith
  have hscore := c75_one.mpr hdt.symm
  obtain ⟨j, hj⟩ := List.getElem?_of_mem hdk
  obtain ⟨m1, m2⟩ := mapM_eq_ok_iff.mp hsc
  have hjs : j < scores.length := by rw [m1]; exact (List.getElem?_eq_some_iff.mp hj).1
  have := m2 j d _ hj (List.getElem?_eq_getElem hjs)
  rw [hscore] at this
  rw [Except.ok.inj this]
  exact List.getElem_mem hjs

theorem mapM_nmi {ps : List (List Nat)} (hl : ∀ p ∈ ps, truth.length = p.length) :
    ∃ scores, (ps.mapM fun p => nmi truth p) = .ok scores := by
  induction ps with
  | nil => exact ⟨[], rfl⟩
  | cons p ps ih =>
    obtain ⟨r, hr, -⟩ := c75_range (hl p (by simp))
    obtain ⟨s, hs⟩ := ih fun q hq => hl q (by simp [hq])
    exact ⟨.fin r :: s, by rw [List.mapM_cons, hr, Py.ok_bind, hs]; rfl⟩

/-- **C89 (no crash).** With an exact LP solver, an undirected graph in which every vertex has an edge, positive weights if
igraph reports weights, a ground truth with labels `0, …, K - 1` that has an estimate, and a community detection that
finds a partition in each of at least two runs, all four methods return scores. -/
theorem c89_returns (hte : env.test = penv.test) (hs : SoundPruneEnv penv) (hx : ExactEnv penv.toChampEnv) (hG : G.WF)
    (hP : ProducesPartitions env) (hdir : G.directed = false) (hv : 0 < G.vcount)
    (hiso : ∀ v < G.vcount, ∃ e ∈ G.edges, e.1 = v ∨ e.2 = v)
    (hw : penv.test G = true → ∃ ws, G.weight = some ws ∧ ∀ w ∈ ws, 0 < w) (ht : truth.length = G.vcount)
    {K : Nat} (hK : Contiguous truth K) {g : Fl ℝ} {H : Graph ℝ} (he : gammaEstimate env.test G truth = .ok (some g, H))
    (hr : 2 ≤ runs) (hlh : lo < hi) (hfind : ∀ i γ, ∃ c, env.findPartition i (defaulted env.test G) γ = .ok c)
    (hm : method ∈ ["modularity pruning", "modularity pruning ground truth K", "gamma sweep", "ground truth gamma"]) :
    ∃ scores, runMethod env penv G truth runs method lo hi w = (some (.ok scores) : Option _) := by
  have hH : H = defaulted penv.test G := by
    have := gammaEstimate_graph he
    rw [ensureWeight_size hG, hte] at this
    exact (Except.ok.inj this).symm
  subst hH
  rw [hte] at he
  obtain ⟨gammas, hg⟩ : ∃ gammas, methodGammas method g runs lo hi = .ok gammas := by
    simp only [List.mem_cons, List.not_mem_nil, or_false] at hm
    unfold methodGammas
    split
    · exact ⟨_, rfl⟩
    · rw [if_pos (by tauto)]; exact ⟨_, rfl⟩
  have hfix : defaulted env.test (defaulted penv.test G) = defaulted penv.test G := by rw [hte]; exact defaulted_idem _ _
  obtain ⟨S, hS, hSl⟩ : ∃ S, (repeatedLeiden env (defaulted penv.test G) gammas w).1 = .ok (S, defaulted penv.test G) ∧
      ∀ p ∈ S, p.length = G.vcount := by
    have hall : ∀ n (T : Finset (List Nat)), (∀ p ∈ T, p.length = G.vcount) → ∀ (w : World) (gs : List (Fl ℝ)), gs.length = n →
        ∃ S, (setComprehension (singlelayerLeiden env) (defaulted penv.test G) gs T w).1 = .ok (S, defaulted penv.test G) ∧
          ∀ p ∈ S, p.length = G.vcount := by
      intro n
      induction n with
      | zero => intro T hT w gs hgs; rw [List.length_eq_zero_iff] at hgs; subst hgs; exact ⟨T, rfl, hT⟩
      | succ n ih =>
        intro T hT w gs hgs
        match gs, hgs with
        | γ :: gs, hgs =>
          obtain ⟨c, hc⟩ := hfind w.calls γ
          rw [hte] at hc
          have hrun : singlelayerLeiden env (defaulted penv.test G) γ w =
              (.ok (c, defaulted penv.test G), { w with calls := w.calls + 1 }) := by
            unfold singlelayerLeiden
            rw [ensureWeight_ecount, Prog.lift_ok, Prog.bind_eq, hfix]
            simp only [Prog.optimise]
            rw [hc]
            rfl
          have hcl : (canon c).length = G.vcount := by
            rw [canon_length, hP.1 _ _ _ _ hc, (defaulted_facts _ _).1]
          obtain ⟨S, h1, h2⟩ := ih (insert (canon c) T) (fun p hp => by
            rcases Finset.mem_insert.mp hp with rfl | hp
            · exact hcl
            · exact hT p hp) { w with calls := w.calls + 1 } gs (by simpa using hgs)
          refine ⟨S, ?_, h2⟩
          unfold setComprehension
          rw [Prog.bind_eq, hrun]
          simp only [sortedTuple_eq, Prog.lift_ok]
          exact h1
    exact hall _ ∅ (by simp) w gammas rfl
  have hps : ∀ p ∈ penv.setOrder S.toList, p.length = G.vcount := fun p hp =>
    hSl p (Finset.mem_toList.mp ((hs.setMem _ _).mp hp))
  obtain ⟨dv, de, dd, dm⟩ := defaulted_facts penv.test G
  have hWF := ensureWeight_wf hG (ensureWeight_size (test := penv.test) hG)
  have hprune : ∀ restrict, ∃ kept H, pruneToStable penv (defaulted penv.test G) (.memberships (penv.setOrder S.toList)) lo hi
      restrict true = (some (.ok (kept, H)) : Option _) := fun restrict =>
    c39_returns hs hx hWF (dd.trans hdir) (by rw [dv]; exact hv) (by rw [dv, de]; exact hiso) (by
      intro _
      by_cases htG : penv.test G = true
      · obtain ⟨ws, h1, h2⟩ := hw htG
        refine ⟨ws, ?_, h2⟩
        unfold defaulted
        rw [if_pos htG]; exact h1
      · refine ⟨List.replicate G.ecount 1, ?_, fun x hx => ?_⟩
        · unfold defaulted
          rw [if_neg htG]
        · rw [List.eq_of_mem_replicate hx]; norm_num) (by rw [dv]; exact hps) hlh restrict true
  have hkept : ∀ {restrict kept H}, pruneToStable penv (defaulted penv.test G) (.memberships (penv.setOrder S.toList)) lo hi
      restrict true = (some (.ok (kept, H)) : Option _) → ∀ p ∈ kept, truth.length = p.length := by
    intro restrict kept H hk p hp
    obtain ⟨⟨q, hq, hqp⟩, -⟩ := c38_sound hs hWF (by rw [dv]; exact hps) hk p hp
    rw [sortedTuple_eq] at hqp
    obtain rfl := Except.ok.inj hqp
    rw [canon_length, hps q hq.1, ht]
  have hfirst : pyGet (linspace lo hi runs) 0 = .ok lo := by
    unfold pyGet
    rw [linspace_get (by omega), sweep_first hr]
  have hlast : pyGet (linspace lo hi runs) ((linspace lo hi runs).length - 1) = .ok hi := by
    unfold pyGet
    rw [linspace_length, linspace_get (by omega), sweep_last hr]
  have hnum : numCommunities (truth.map Int.ofNat) = .ok K := by
    rw [numCommunities_ok_iff (by simp) (by
      intro h0
      rw [List.map_eq_nil_iff] at h0
      rw [h0] at ht
      simp at ht
      omega)]
    intro x
    rw [List.mem_map]
    constructor
    · rintro ⟨k, hk, rfl⟩
      have := (hK k).mp hk
      exact ⟨Int.natCast_nonneg k, Int.ofNat_lt.mpr this⟩
    · rintro ⟨h0, h1⟩
      obtain ⟨k, rfl⟩ := Int.eq_ofNat_of_zero_le h0
      exact ⟨k, (hK k).mpr (by exact_mod_cast h1), rfl⟩
  unfold runMethod
  rw [he]
  by_cases m1 : method = "modularity pruning"
  · obtain ⟨kept, H, hk⟩ := hprune none
    obtain ⟨scores, hsc⟩ := mapM_nmi (hkept hk)
    refine ⟨scores, Run.bind_ok.mpr ⟨_, rfl, Run.bind_ok.mpr ⟨_, Run.ofPy_ok.mpr hg, Run.bind_ok.mpr ⟨_, Run.ofPy_ok.mpr hS, ?_⟩⟩⟩⟩
    rw [if_pos m1]
    exact Run.bind_ok.mpr ⟨_, Run.ofPy_ok.mpr hfirst, Run.bind_ok.mpr ⟨_, Run.ofPy_ok.mpr hlast, Run.bind_ok.mpr ⟨_, hk,
      Run.ofPy_ok.mpr hsc⟩⟩⟩
  · by_cases m2 : method = "modularity pruning ground truth K"
    · obtain ⟨kept, H, hk⟩ := hprune (some K)
      obtain ⟨scores, hsc⟩ := mapM_nmi (hkept hk)
      refine ⟨scores, Run.bind_ok.mpr ⟨_, rfl, Run.bind_ok.mpr ⟨_, Run.ofPy_ok.mpr hg, Run.bind_ok.mpr ⟨_, Run.ofPy_ok.mpr hS, ?_⟩⟩⟩⟩
      rw [if_neg m1, if_pos m2]
      exact Run.bind_ok.mpr ⟨_, Run.ofPy_ok.mpr hnum, Run.bind_ok.mpr ⟨_, Run.ofPy_ok.mpr hfirst, Run.bind_ok.mpr ⟨_,
        Run.ofPy_ok.mpr hlast, Run.bind_ok.mpr ⟨_, hk, Run.ofPy_ok.mpr hsc⟩⟩⟩⟩
    · obtain ⟨scores, hsc⟩ := mapM_nmi (truth := truth) (ps := penv.setOrder S.toList) fun p hp => by rw [hps p hp, ht]
      refine ⟨scores, Run.bind_ok.mpr ⟨_, rfl, Run.bind_ok.mpr ⟨_, Run.ofPy_ok.mpr hg, Run.bind_ok.mpr ⟨_, Run.ofPy_ok.mpr hS, ?_⟩⟩⟩⟩
      rw [if_neg m1, if_neg m2]
      exact Run.ofPy_ok.mpr hsc

end

/-! ### Witnesses -/

/-- A path of four nodes with two planted communities. -/
def nxPath : NxLfr := ⟨4, [(0, 1), (1, 2), (2, 3)], [{0, 1}, {0, 1}, {2, 3}, {2, 3}]⟩

/-- The path meets the hypotheses of `c89_accepted`, with the communities met in the "wrong" order. -/
example : IterationOf nxPath.community [[3, 2], [0, 1]] ∧ Planted nxPath ∧
    (∀ e ∈ nxPath.edges, e.1 < nxPath.nodes ∧ e.2 < nxPath.nodes) ∧ 2 ≤ nxPath.nodes := by
  refine ⟨⟨by decide, by decide⟩, ⟨rfl, ?_⟩, by decide, by decide⟩
  intro v C h
  match v, h with
  | 0, h => cases h; decide
  | 1, h => cases h; decide
  | 2, h => cases h; decide
  | 3, h => cases h; decide

example : (groundTruth nxPath [[3, 2], [0, 1]]).map Prod.snd = .ok [1, 1, 0, 0] := by
  have : (graphOfEdges nxPath.edges).vcount = 4 := by decide
  unfold groundTruth
  simp [nxPath, assignCommunities, assignCommunity, checkCommunities, Py.ok_bind] at this ⊢
  simp [this]
  rfl

/-- A community detection that always finds the ground truth of the triangle with a tail. -/
noncomputable def truthEnv : LeidenEnv := { pawEnv with
  findPartition := fun _ G _ => .ok (if G.vcount = 4 then [5, 5, 1, 2] else List.replicate G.vcount 0) }

theorem truthEnv_produces : ProducesPartitions truthEnv := by
  refine ⟨fun i G γ c h => ?_, fun i parts ws c h => by cases h⟩
  cases h
  split <;> simp_all

/-- The hypotheses of `c89_returns` and `c89_recovers` are met: on the triangle with a tail and the ground truth
`{0,1},{2},{3}`, whose estimate lies between 0 and 2, "modularity pruning" with two runs over `[0, 2]` reports the score 1. -/
theorem lfr_witness (w : World) : ∃ scores, runMethod truthEnv pruneEnv gPaw [0, 0, 1, 2] 2 "modularity pruning" 0 2 w =
    (some (.ok scores) : Option _) ∧ .fin 1 ∈ scores := by
  obtain ⟨g1, g2, a1, b1, -, -, ⟨H, e1⟩, -⟩ := c80_loop_exists (fun _ => false) rfl
  have hfind : ∀ i γ, truthEnv.findPartition i (defaulted truthEnv.test gPaw) γ = .ok [5, 5, 1, 2] := fun i γ => rfl
  have hsame : SamePartition [5, 5, 1, 2] [0, 0, 1, 2] := by
    rw [← canon_eq_iff]
    decide
  have hest : HasEstimate truthEnv.test gPaw [0, 0, 1, 2] g1 := ⟨[0, 0, 1, 2], H, by decide, e1⟩
  obtain ⟨scores, hsc⟩ := c89_returns (env := truthEnv) (penv := pruneEnv) (G := gPaw) (truth := [0, 0, 1, 2]) (runs := 2)
    (method := "modularity pruning") (lo := 0) (hi := 2) (w := w) rfl pruneEnv_sound exactEnv_exact gPaw_wf truthEnv_produces rfl
    (by decide) (by decide) (by intro h; cases h) rfl (K := 3) (fun k => by simp; omega) e1 le_rfl (by norm_num)
    (fun i γ => ⟨_, hfind i γ⟩) (by simp)
  exact ⟨scores, hsc, c89_recovers rfl pruneEnv_sound gPaw_wf truthEnv_produces rfl le_rfl rfl (by decide)
    (by intro h; cases h) hest (by linarith) (by linarith) (i := 0) (by norm_num) (hfind _ _) hsame
    (fun j _ q hq => by rw [hfind] at hq; cases hq; exact .inl hsame) hsc⟩

end Verif.Props
