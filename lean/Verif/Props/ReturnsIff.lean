import Verif.Props.Champ2D
import Verif.Props.Champ3D
import Verif.Model.Warnings

/-!
# C17, C21: exactly when CHAMP returns
-/

namespace Verif.Props
open Verif Verif.Spec

variable {α : Type} [DecidableEq α] {env : ChampEnv} {G Gi Gx : Graph ℝ} {layer : List Nat} {parts : List (List α)}
  {γ₀ γf ω₀ ωf : ℝ}

theorem max_min_exist {β : Type} (L : List β) (f g : β → ℝ) (hL : L ≠ []) :
    ∃ a ∈ L, ∃ b ∈ L, pyMax (L.map f) = .ok (f a) ∧ pyMin (L.map g) = .ok (g b) ∧ (∀ t ∈ L, f t ≤ f a) ∧ ∀ t ∈ L, g b ≤ g t := by
  obtain ⟨a, ha, ham⟩ := exists_max_list L f hL
  obtain ⟨b, hb, hbm⟩ := exists_max_list L (fun t => - g t) hL
  refine ⟨a, ha, b, hb, ?_, ?_, ham, fun t ht => neg_le_neg_iff.1 (hbm t ht)⟩
  · rw [pyMax_ok]
    refine ⟨List.mem_map.2 ⟨a, ha, rfl⟩, fun x hx => ?_⟩
    obtain ⟨t, ht, rfl⟩ := List.mem_map.1 hx
    exact ham t ht
  · rw [pyMin_ok]
    refine ⟨List.mem_map.2 ⟨b, hb, rfl⟩, fun x hx => ?_⟩
    obtain ⟨t, ht, rfl⟩ := List.mem_map.1 hx
    exact neg_le_neg_iff.1 (hbm t ht)

/-- **C17 (exactly when it returns).** On every graph with an edge, directed or not, and for every non-empty list of partitions:
`CHAMP_2D` returns iff the window is not empty and every input that is optimal at `gamma_0` has a positive null-model sum; otherwise it
raises `ValueError`. -/
theorem c17_returns_iff (he : ExactEnv env) (hG : G.WF) (hm : 0 < G.ecount) (hp : ∀ c ∈ parts, c.length = G.vcount)
    (hne : parts ≠ []) (st : Bool) :
    let returns := γ₀ < γf ∧ ∀ c ∈ parts, (∀ c' ∈ parts, modularity G γ₀ c' ≤ modularity G γ₀ c) → 0 < withinNull G c
    (returns → ∃ ranges, champ2D env G parts γ₀ γf st = (some (.ok ranges) : Option _)) ∧
    (¬ returns → ∃ msg, champ2D env G parts γ₀ γf st = (some (.error (.valueError msg)) : Option _)) := by
  have hLne : coefs2D G parts ≠ [] := by intro h; exact hne (List.map_eq_nil_iff.mp h)
  obtain ⟨a, ha, b, hb, htop, hbot, hmax, hmin⟩ :=
    max_min_exist (coefs2D G parts) (fun ap => ap.1 - ap.2 * γ₀) (fun ap => ap.1 - ap.2 * γf) hLne
  have hmod : ∀ (c : List α) (γ : ℝ), modularity G γ c = withinAdj G c - withinNull G c * γ := by
    intro c γ; rw [modularity_affine]; ring
  have key := champ2D_from_coefs (st := st) he hG hm hp hne htop hbot
  have hP : ∀ t ∈ coefs2D G parts, 0 ≤ t.2 := by
    intro t ht
    obtain ⟨c, -, rfl⟩ := List.mem_map.1 ht
    exact withinNull_nonneg G c
  intro returns
  constructor
  · rintro ⟨hγ, hpos⟩
    refine key.1 ?_
    obtain ⟨am, ham, hamm⟩ := exists_max_list (coefs2D G parts) (fun ap => ap.1 - ap.2 * ((γ₀ + γf) / 2)) hLne
    have h1 : am.1 - am.2 * ((γ₀ + γf) / 2) < a.1 - a.2 * γ₀ := by
      by_contra hcon
      push Not at hcon
      have e1 := hmax am ham
      have hPam := hP am ham
      have e2 : am.2 * γ₀ ≤ am.2 * ((γ₀ + γf) / 2) := mul_le_mul_of_nonneg_left (by linarith) hPam
      have e3 : am.1 - am.2 * γ₀ = a.1 - a.2 * γ₀ := by linarith
      obtain ⟨c, hc, rfl⟩ := List.mem_map.1 ham
      have := hpos c hc (by
        intro c' hc'
        rw [hmod, hmod]
        have := hmax _ (List.mem_map.2 ⟨c', hc', rfl⟩)
        dsimp only at this e3
        linarith)
      have e4 := mul_lt_mul_of_pos_left (show γ₀ < (γ₀ + γf) / 2 by linarith) this
      dsimp only at *
      linarith
    have h2 : b.1 - b.2 * γf ≤ am.1 - am.2 * ((γ₀ + γf) / 2) := by
      have e1 := hamm b hb
      have e2 : b.2 * ((γ₀ + γf) / 2) ≤ b.2 * γf := mul_le_mul_of_nonneg_left (by linarith) (hP b hb)
      linarith
    refine ⟨![(γ₀ + γf) / 2, ((am.1 - am.2 * ((γ₀ + γf) / 2)) + (a.1 - a.2 * γ₀)) / 2], ?_⟩
    rw [interior2D]
    simp only [Matrix.cons_val_zero, Matrix.cons_val_one]
    refine ⟨fun ap hap => ?_, by linarith, by linarith, by linarith, by linarith⟩
    have := hamm ap hap
    linarith
  · intro hnot
    refine key.2 ?_
    rintro ⟨x, hx⟩
    obtain ⟨h1, h2, h3, h4, h5⟩ := interior2D.mp hx
    apply hnot
    refine ⟨by linarith, fun c hc hopt => ?_⟩
    have hmem : (withinAdj G c, withinNull G c) ∈ coefs2D G parts := List.mem_map.2 ⟨c, hc, rfl⟩
    have e1 := h1 _ hmem
    obtain ⟨c', hc', rfl⟩ := List.mem_map.1 ha
    have e2 := hopt c' hc'
    rw [hmod, hmod] at e2
    dsimp only at e1 h2
    by_contra hcon
    have e0 : withinNull G c = 0 := le_antisymm (not_lt.1 hcon) (withinNull_nonneg G c)
    rw [e0] at e1 e2
    linarith

/-- **C21 (exactly when it returns).** For every multilayer network with an intralayer edge out of every layer (if undirected: in every
layer), directed or not, and every non-empty list of partitions: `CHAMP_3D` returns iff both windows are not empty and every input that
is optimal at `(gamma_0, omega_f)` has a positive null-model sum or a coupling edge inside a community; otherwise it raises
`ValueError`. -/
theorem c21_returns_iff (he : ExactEnv env) (hM : Multilayer Gi Gx layer) (hn : layer ≠ [])
    (hedge : ∀ t ∈ layer, ∃ e ∈ Gi.edges, layer[e.1]? = some t) (hp : ∀ c ∈ parts, c.length = Gi.vcount) (hne : parts ≠ []) :
    let returns := γ₀ < γf ∧ ω₀ < ωf ∧ ∀ c ∈ parts,
      (∀ c' ∈ parts, multilayerModularity Gi Gx layer γ₀ ωf c' ≤ multilayerModularity Gi Gx layer γ₀ ωf c) →
        0 < withinNullLayered Gi layer c ∨ 0 < withinAdj Gx c
    (returns → ∃ doms, champ3D env Gi Gx layer parts γ₀ γf ω₀ ωf = (some (.ok doms) : Option _)) ∧
    (¬ returns → ∃ msg, champ3D env Gi Gx layer parts γ₀ γf ω₀ ωf = (some (.error (.valueError msg)) : Option _)) := by
  set L := coefs3D Gi Gx layer parts with hL
  have hLne : L ≠ [] := by intro h; exact hne (List.map_eq_nil_iff.mp h)
  obtain ⟨a, ha, b, hb, htop, hbot, hmax, hmin⟩ := max_min_exist L (fun t => val3 t γ₀ ωf) (fun t => val3 t γf ω₀) hLne
  have hmod : ∀ (c : List α) (γ ω : ℝ), multilayerModularity Gi Gx layer γ ω c =
      val3 (withinAdj Gi c, withinNullLayered Gi layer c, withinAdj Gx c) γ ω := by
    intro c γ ω; unfold multilayerModularity val3; ring
  have key := champ3D_from_coefs he hM hn hedge hp hne htop hbot
  have hP : ∀ t ∈ L, 0 ≤ t.2.1 := by
    intro t ht
    obtain ⟨c, -, rfl⟩ := List.mem_map.1 ht
    exact withinNullLayered_nonneg Gi layer c
  have hC : ∀ t ∈ L, 0 ≤ t.2.2 := by
    intro t ht
    obtain ⟨c, -, rfl⟩ := List.mem_map.1 ht
    exact withinAdj_nonneg Gx c
  intro returns
  constructor
  · rintro ⟨hγ, hω, hpos⟩
    refine key.1 ?_
    set g := (γ₀ + γf) / 2 with hg
    set w := (ω₀ + ωf) / 2 with hw
    obtain ⟨am, ham, hamm⟩ := exists_max_list L (fun t => val3 t g w) hLne
    have h1 : val3 am g w < val3 a γ₀ ωf := by
      by_contra hcon
      push Not at hcon
      have e1 := hmax am ham
      have e2 : am.2.1 * γ₀ ≤ am.2.1 * g := mul_le_mul_of_nonneg_left (by rw [hg]; linarith) (hP am ham)
      have e3 : am.2.2 * w ≤ am.2.2 * ωf := mul_le_mul_of_nonneg_left (by rw [hw]; linarith) (hC am ham)
      have e4 : val3 am γ₀ ωf = val3 a γ₀ ωf := by unfold val3 at *; linarith
      obtain ⟨c, hc, rfl⟩ := List.mem_map.1 ham
      have := hpos c hc (by
        intro c' hc'
        rw [hmod, hmod, e4]
        exact hmax _ (List.mem_map.2 ⟨c', hc', rfl⟩))
      rcases this with h | h
      · have e5 := mul_lt_mul_of_pos_left (show γ₀ < g by rw [hg]; linarith) h
        unfold val3 at *
        dsimp only at *
        linarith
      · have e5 := mul_lt_mul_of_pos_left (show w < ωf by rw [hw]; linarith) h
        unfold val3 at *
        dsimp only at *
        linarith
    have h2 : val3 b γf ω₀ ≤ val3 am g w := by
      have e1 := hamm b hb
      have e2 : b.2.1 * g ≤ b.2.1 * γf := mul_le_mul_of_nonneg_left (by rw [hg]; linarith) (hP b hb)
      have e3 : b.2.2 * ω₀ ≤ b.2.2 * w := mul_le_mul_of_nonneg_left (by rw [hw]; linarith) (hC b hb)
      unfold val3 at *; linarith
    refine ⟨![g, w, (val3 am g w + val3 a γ₀ ωf) / 2], ?_⟩
    rw [interior3D]
    simp only [Matrix.cons_val_zero, Matrix.cons_val_one, Matrix.cons_val]
    refine ⟨fun t ht => ?_, by linarith, by linarith, by rw [hg]; linarith, by rw [hg]; linarith, by rw [hw]; linarith,
      by rw [hw]; linarith⟩
    have := hamm t ht
    linarith
  · intro hnot
    refine key.2 ?_
    rintro ⟨x, hx⟩
    obtain ⟨h1, h2, h3, h4, h5, h6, h7⟩ := interior3D.mp hx
    apply hnot
    refine ⟨by linarith, by linarith, fun c hc hopt => ?_⟩
    have e1 := h1 _ (List.mem_map.2 ⟨c, hc, rfl⟩)
    obtain ⟨c', hc', rfl⟩ := List.mem_map.1 ha
    have e2 := hopt c' hc'
    rw [hmod, hmod] at e2
    by_contra hcon
    push Not at hcon
    have p0 : withinNullLayered Gi layer c = 0 := le_antisymm hcon.1 (withinNullLayered_nonneg Gi layer c)
    have c0 : withinAdj Gx c = 0 := le_antisymm hcon.2 (withinAdj_nonneg Gx c)
    rw [p0, c0] at e1 e2
    unfold val3 at *
    dsimp only at *
    linarith

/-- The null-model sum of a membership is positive iff some community has an edge into it and an edge out of it. -/
theorem withinNull_pos_iff (hG : G.WF) {c : List α} (hc : c.length = G.vcount) :
    0 < withinNull G c ↔ ∃ i j : Nat, i < G.vcount ∧ j < G.vcount ∧ c[i]? = c[j]? ∧ (∃ u, G.Step u i) ∧ ∃ u, G.Step j u := by
  have hadj : ∀ u v, 0 < adj G u v ↔ G.Step u v := by
    intro u v
    unfold adj Graph.Step
    have e1 : 0 < G.edges.count (u, v) ↔ (u, v) ∈ G.edges := List.count_pos_iff
    have e2 : 0 < G.edges.count (v, u) ↔ (v, u) ∈ G.edges := List.count_pos_iff
    cases hd : G.directed
    · simp only [Bool.false_eq_true, if_false, true_and]
      rw [← e1, ← e2]; omega
    · simp only [if_true, Bool.true_eq_false, false_and, or_false]
      exact e1
  have hrange : ∀ u v, G.Step u v → u < G.vcount ∧ v < G.vcount := by
    rintro u v (h | ⟨-, h⟩)
    · exact hG.1 _ h
    · exact (hG.1 _ h).symm
  have hcol : ∀ i, 0 < colSum G i ↔ ∃ u, G.Step u i := by
    intro i
    unfold colSum
    rw [Finset.sum_pos_iff]
    constructor
    · rintro ⟨u, -, h⟩; exact ⟨u, (hadj u i).1 h⟩
    · rintro ⟨u, h⟩; exact ⟨u, Finset.mem_range.2 (hrange _ _ h).1, (hadj u i).2 h⟩
  have hrow : ∀ j, 0 < rowSum G j ↔ ∃ u, G.Step j u := by
    intro j
    unfold rowSum
    rw [Finset.sum_pos_iff]
    constructor
    · rintro ⟨u, -, h⟩; exact ⟨u, (hadj j u).1 h⟩
    · rintro ⟨u, h⟩; exact ⟨u, Finset.mem_range.2 (hrange _ _ h).2, (hadj j u).2 h⟩
  have hnn : ∀ i j, (0 : ℝ) ≤ if c[i]? = c[j]? then (colSum G i : ℝ) * (rowSum G j : ℝ) / (total G : ℝ) else 0 := by
    intro i j; split <;> positivity
  constructor
  · intro h
    unfold withinNull at h
    obtain ⟨i, hi, h⟩ := Finset.exists_lt_of_sum_lt (s := Finset.range G.vcount) (f := fun _ => (0 : ℝ)) (by simpa using h)
    obtain ⟨j, hj, h⟩ := Finset.exists_lt_of_sum_lt (s := Finset.range G.vcount) (f := fun _ => (0 : ℝ)) (by simpa using h)
    split at h
    · rename_i hij
      refine ⟨i, j, Finset.mem_range.1 hi, Finset.mem_range.1 hj, hij, ?_, ?_⟩
      · rw [← hcol]
        by_contra h0
        have : colSum G i = 0 := by omega
        rw [this] at h; simp at h
      · rw [← hrow]
        by_contra h0
        have : rowSum G j = 0 := by omega
        rw [this] at h; simp at h
    · exact absurd h (lt_irrefl _)
  · rintro ⟨i, j, hi, hj, hij, hu, hv⟩
    have h1 := (hcol i).2 hu
    have h2 := (hrow j).2 hv
    have h3 : 0 < total G := by
      unfold total
      refine Finset.sum_pos' (fun _ _ => Nat.zero_le _) ⟨j, Finset.mem_range.2 hj, ?_⟩
      exact h2
    unfold withinNull
    refine Finset.sum_pos' (fun i _ => Finset.sum_nonneg fun j _ => hnn i j) ⟨i, Finset.mem_range.2 hi, ?_⟩
    refine Finset.sum_pos' (fun j _ => hnn i j) ⟨j, Finset.mem_range.2 hj, ?_⟩
    rw [if_pos hij]
    positivity

/-- In a connected graph (strongly, if directed) with at least two vertices every membership has a positive null-model sum. -/
theorem connected_null_pos (hG : G.WF) (hcon : G.IsConnected) (h2 : 2 ≤ G.vcount) {c : List α} (hc : c.length = G.vcount) :
    0 < withinNull G c := by
  rw [withinNull_pos_iff hG hc]
  refine ⟨0, 0, by omega, by omega, rfl, ?_, ?_⟩
  · rcases Relation.ReflTransGen.cases_tail (hcon.2 1 (by omega) 0 (by omega)) with h | ⟨u, -, h⟩
    · omega
    · exact ⟨u, h⟩
  · rcases Relation.ReflTransGen.cases_head (hcon.2 0 (by omega) 1 (by omega)) with h | ⟨u, h, -⟩
    · omega
    · exact ⟨u, h⟩

/-- **C17.** On a connected graph with at least two vertices – strongly connected, if directed – `CHAMP_2D` returns for every non-empty
list of partitions and every non-empty window. -/
theorem c17_returns_connected (he : ExactEnv env) (hG : G.WF) (hcon : G.IsConnected) (h2 : 2 ≤ G.vcount)
    (hp : ∀ c ∈ parts, c.length = G.vcount) (hne : parts ≠ []) (hγ : γ₀ < γf) (st : Bool) :
    ∃ ranges, champ2D env G parts γ₀ γf st = (some (.ok ranges) : Option _) := by
  have hm : 0 < G.ecount := by
    rcases Relation.ReflTransGen.cases_head (hcon.2 0 (by omega) 1 (by omega)) with h | ⟨u, h, -⟩
    · omega
    · rcases h with h | ⟨-, h⟩ <;> exact List.length_pos_of_mem h
  exact (c17_returns_iff he hG hm hp hne st).1 ⟨hγ, fun c hc _ => connected_null_pos hG hcon h2 (hp c hc)⟩

/-! ### Without edges -/

theorem requireFinite_cases (l : List (Fl ℝ)) :
    (∃ P, requireFinite l = .ok P) ∨ ∃ msg, requireFinite l = .error (.valueError msg) := by
  unfold requireFinite
  induction l with
  | nil => exact .inl ⟨_, rfl⟩
  | cons a l ih =>
    rw [List.mapM_cons]
    cases a with
    | fin x =>
      rcases ih with ⟨P, h⟩ | ⟨msg, h⟩
      · exact .inl ⟨_, by rw [h]; rfl⟩
      · exact .inr ⟨msg, by rw [h]; rfl⟩
    | _ => exact .inr ⟨_, rfl⟩

/-- **C17.** On a graph without edges `CHAMP_2D` raises `ValueError` for every non-empty list of partitions. -/
theorem c17_edgeless (he : SoundEnv env) (hG : G.WF) (hm : G.ecount = 0)
    (hp : ∀ c ∈ parts, c.length = G.vcount) (hne : parts ≠ []) (γ₀ γf : ℝ) (st : Bool) :
    ∃ msg, champ2D env G parts γ₀ γf st = (some (.error (.valueError msg)) : Option _) := by
  obtain ⟨r, h1, h2⟩ := c11_parallel_2D (F := ℝ) he.rounding he.sched G parts st
  obtain rfl := (h2 _).mpr (((c12_failures_2D (F := ℝ) hG).1 hp).2 hm)
  rcases requireFinite_cases (parts.map fun _ => (.nan : Fl ℝ)) with ⟨P, h⟩ | ⟨msg, h⟩
  · rw [requireFinite_ok] at h
    cases parts with
    | nil => exact absurd rfl hne
    | cons c cs => cases P with
      | nil => cases h
      | cons x xs => cases h
  · refine ⟨msg, ?_⟩
    have hlen : parts.length ≠ 0 := fun h0 => hne (List.length_eq_zero_iff.mp h0)
    unfold champ2D
    rw [if_neg hlen, h1]
    have : (Run.ofPy (requireFinite (parts.map fun _ => (.nan : Fl ℝ))) : Run (List ℝ)) = Run.ofPy (.error (.valueError msg)) := by rw [h]
    refine Eq.trans (b := ((Run.ofPy (requireFinite (parts.map fun _ => (.nan : Fl ℝ))) : Run (List ℝ)) >>= _ : Run _)) rfl ?_
    rw [this]
    rfl

/-- Whatever the layers, memberships of the right length have coefficients. -/
theorem coefficients3D_any (hM : Multilayer Gi Gx layer) (hn : layer ≠ []) (hp : ∀ c ∈ parts, c.length = Gi.vcount) :
    ∃ v, partitionCoefficients3DSerial (F := ℝ) Gi Gx layer parts = .ok v := by
  obtain ⟨ec, hec1, hec2⟩ := ecountPerLayer_ok (F := ℝ) hM.intra hM.layers hn
  have hex : ∀ {β : Type} (f : List α → Py β), (∀ c ∈ parts, ∃ b, f c = .ok b) → ∃ bs, parts.mapM f = .ok bs := by
    intro β f hf
    clear hp
    induction parts with
    | nil => exact ⟨[], rfl⟩
    | cons c cs ih =>
      obtain ⟨b, hb⟩ := hf c (by simp)
      obtain ⟨bs, hbs⟩ := ih fun x hx => hf x (by simp [hx])
      exact ⟨b :: bs, by rw [List.mapM_cons, hb, hbs]; rfl⟩
  obtain ⟨a, ha⟩ := hex _ fun c hc => let ⟨a, h, _⟩ := adjacencyCoefficient_ok hM.intra (hp c hc); ⟨a, h⟩
  obtain ⟨p, hp'⟩ := hex _ fun c hc => ⟨_, nullModelCoefficient3D_eq hM.intra hM.layers hec2 (hp c hc)⟩
  obtain ⟨x, hx⟩ := hex _ fun c hc => let ⟨a, h, _⟩ := adjacencyCoefficient_ok hM.inter ((hp c hc).trans hM.vcount.symm); ⟨a, h⟩
  exact ⟨_, (serial3D_ok_iff hec1).mpr ⟨a, p, x, ha, hp', hx, rfl⟩⟩

/-- **C21.** If some layer has no intralayer edge out of it, `CHAMP_3D` raises `ValueError` for every non-empty list of partitions. -/
theorem c21_empty_layer (he : SoundEnv env) (hM : Multilayer Gi Gx layer) {t : Nat} (ht : t ∈ layer)
    (hempty : ∀ e ∈ Gi.edges, layer[e.1]? ≠ some t) (hp : ∀ c ∈ parts, c.length = Gi.vcount) (hne : parts ≠ []) (γ₀ γf ω₀ ωf : ℝ) :
    ∃ msg, champ3D env Gi Gx layer parts γ₀ γf ω₀ ωf = (some (.error (.valueError msg)) : Option _) := by
  have hn : layer ≠ [] := List.ne_nil_of_mem ht
  obtain ⟨v, hv⟩ := coefficients3D_any hM hn hp
  obtain ⟨r, h1, h2⟩ := c11_parallel_3D he.workers he.rounding he.sched Gi Gx layer parts
  obtain rfl := (h2 _).mpr hv
  rcases requireFinite_cases v.2.1 with ⟨P, h⟩ | ⟨msg, h⟩
  · obtain ⟨e, he1, he2⟩ := (champ3D_coefs he.workers he.rounding he.sched hM hp hne h1 h).1.2 t ht
    exact absurd he2 (hempty e he1)
  · refine ⟨msg, ?_⟩
    have hlen : parts.length ≠ 0 := fun h0 => hne (List.length_eq_zero_iff.mp h0)
    unfold champ3D
    rw [if_neg hlen, h1]
    have : (Run.ofPy (requireFinite v.2.1) : Run (List ℝ)) = Run.ofPy (.error (.valueError msg)) := by rw [h]
    refine Eq.trans (b := ((Run.ofPy (requireFinite v.2.1) : Run (List ℝ)) >>= _ : Run _)) rfl ?_
    rw [this]
    rfl

/-! ### Witnesses -/

/-- A directed triangle. -/
def gCycle3 : Graph ℝ := ⟨3, true, [(0, 1), (1, 2), (2, 0)], none⟩

theorem gCycle3_connected : gCycle3.IsConnected := by
  have s : ∀ e ∈ gCycle3.edges, gCycle3.Step e.1 e.2 := fun e h => .inl h
  have a : gCycle3.Step 0 1 := s (0, 1) (by simp [gCycle3])
  have b : gCycle3.Step 1 2 := s (1, 2) (by simp [gCycle3])
  have c : gCycle3.Step 2 0 := s (2, 0) (by simp [gCycle3])
  refine ⟨by decide, ?_⟩
  intro u hu v hv
  have hu : u < 3 := hu
  have hv : v < 3 := hv
  have r01 := Relation.ReflTransGen.single a
  have r12 := Relation.ReflTransGen.single b
  have r20 := Relation.ReflTransGen.single c
  interval_cases u <;> interval_cases v
  · exact .refl
  · exact r01
  · exact r01.trans r12
  · exact r12.trans r20
  · exact .refl
  · exact r12
  · exact r20
  · exact r20.trans r01
  · exact .refl

example : ∃ ranges, champ2D exactEnv gCycle3 [[0, 1, 2], [0, 0, 0]] 0 2 false = (some (.ok ranges) : Option _) :=
  c17_returns_connected exactEnv_exact ⟨by decide, by intro ws h; cases h⟩ gCycle3_connected (by decide) (by decide) (by decide)
    (by norm_num) _

/-- Three vertices without edges. -/
example : ∃ msg, champ2D exactEnv (⟨3, true, [], none⟩ : Graph ℝ) [[0, 0, 1]] (0 : ℝ) (1 : ℝ) false = (some (.error (.valueError msg)) : Option _) :=
  c17_edgeless (parts := [[0, 0, 1]]) exactEnv_exact.toSoundEnv ⟨by decide, by intro ws h; cases h⟩ rfl (by decide) (by decide) 0 1 false

/-- Two layers, the second without an edge. -/
example : ∃ msg, champ3D exactEnv (⟨4, false, [(0, 1)], none⟩ : Graph ℝ) ⟨4, false, [(0, 2), (1, 3)], none⟩ [0, 0, 1, 1]
    [[0, 1, 0, 1]] (0 : ℝ) (1 : ℝ) (0 : ℝ) (1 : ℝ) = (some (.error (.valueError msg)) : Option _) := by
  have hM : Multilayer (⟨4, false, [(0, 1)], none⟩ : Graph ℝ) ⟨4, false, [(0, 2), (1, 3)], none⟩ [0, 0, 1, 1] :=
    ⟨⟨by decide, by intro ws h; cases h⟩, ⟨by decide, by intro ws h; cases h⟩, rfl, rfl, .inr (by decide)⟩
  exact c21_empty_layer exactEnv_exact.toSoundEnv hM (show 1 ∈ [0, 0, 1, 1] by decide) (by decide)
    (show ∀ c ∈ [[0, 1, 0, 1]], c.length = 4 by decide) (by decide) 0 1 0 1

end Verif.Props
