import Mathlib.Analysis.Convex.Topology
import Mathlib.Topology.Algebra.Order.Field
import Verif.Proofs.Champ3DRun
import Verif.Props.Champ2D

/-!
# Properties C16, C21–C23: halfspace encoding and `CHAMP_3D`
-/

namespace Verif.Props
open Verif Verif.Spec

variable {α : Type} [DecidableEq α] {env : ChampEnv} {Gi Gx : Graph ℝ} {layer : List Nat} {parts : List (List α)}
  {γ₀ γf ω₀ ωf : ℝ} {doms : List (List (ℝ × ℝ) × List α)}

/-- **C16 (2D).** Row `j` of the normalised halfspace array is satisfied by `(γ, Q)` iff `Q ≥ A_j - γ P_j` and tight iff
equality holds; the remaining rows describe exactly the window `[γ₀, γf] × [bottom, top]`; no row is divided by a zero
norm. -/
theorem c16_encoding_2D (A P : List ℝ) (γ₀ γf : ℝ) (hlen : A.length = P.length) {hs : List (HS 2)}
    (h : champ2DHalfspaces A P γ₀ γf = .ok hs) :
    hs.length = A.length + 4 ∧
    (∀ (j : Nat) (a p : ℝ), A[j]? = some a → P[j]? = some p → ∃ row : HS 2, hs[j]? = some row ∧
      ∀ γ Q, (row.eval ![γ, Q] ≤ 0 ↔ a - γ * p ≤ Q) ∧ (row.eval ![γ, Q] = 0 ↔ Q = a - γ * p)) ∧
    (∃ top bottom, (∀ (j : Nat) (a p : ℝ), A[j]? = some a → P[j]? = some p → a - γ₀ * p ≤ top ∧ bottom ≤ a - γf * p) ∧
      ∀ γ Q, (∀ row ∈ hs.drop A.length, row.eval ![γ, Q] ≤ 0) ↔ γ₀ ≤ γ ∧ γ ≤ γf ∧ bottom ≤ Q ∧ Q ≤ top) ∧
    ∃ raw : List (HS 2), hs = raw.map HS.normalise ∧ ∀ r ∈ raw, 0 < r.rowNorm := by
  unfold champ2DHalfspaces at h
  rw [Py.bind_ok] at h
  obtain ⟨top, htop, h⟩ := h
  rw [Py.bind_ok] at h
  obtain ⟨bottom, hbot, h⟩ := h
  have h : hsArray2D (A.zip P) top bottom γ₀ γf = hs := by injection h
  subst h
  rw [pyMax_ok] at htop
  rw [pyMin_ok] at hbot
  have hz : ∀ {j : Nat} {a p : ℝ}, A[j]? = some a → P[j]? = some p → (A.zip P)[j]? = some (a, p) := by
    intro j a p ha hp
    rw [List.getElem?_zip_eq_some]; exact ⟨ha, hp⟩
  have hzl : (A.zip P).length = A.length := by rw [List.length_zip, ← hlen, min_self]
  refine ⟨?_, ?_, ⟨top, bottom, ?_, ?_⟩, ⟨_, rfl, fun r hr => rowNorm_pos (raw_normals2D r hr)⟩⟩
  · unfold hsArray2D; simp [boundaries2D, hlen]
  · intro j a p ha hp
    refine ⟨_, hsArray2D_get (hz ha hp), fun γ Q => ?_⟩
    rw [normalise_le (halfspace2D_normal _), normalise_eq (halfspace2D_normal _), eval_halfspace2D]
    simp only [Matrix.cons_val_zero, Matrix.cons_val_one]
    constructor <;> constructor <;> intro h <;> linarith
  · intro j a p ha hp
    have hm := List.mem_of_getElem? (hz ha hp)
    have h1 := htop.2 _ (List.mem_map.mpr ⟨_, hm, rfl⟩)
    have h2 := hbot.2 _ (List.mem_map.mpr ⟨_, hm, rfl⟩)
    simp only at h1 h2
    constructor <;> linarith
  · intro γ Q
    have hd : (hsArray2D (A.zip P) top bottom γ₀ γf).drop A.length =
        (boundaries2D top bottom γ₀ γf).map HS.normalise := by
      unfold hsArray2D
      rw [List.map_append, List.drop_left' (by rw [List.length_map, List.length_map, hzl])]
    rw [hd, List.forall_mem_map]
    have : (∀ r ∈ boundaries2D top bottom γ₀ γf, r.normalise.eval ![γ, Q] ≤ 0) ↔
        ∀ r ∈ boundaries2D top bottom γ₀ γf, r.eval ![γ, Q] ≤ 0 :=
      forall₂_congr fun r hr => normalise_le (boundaries2D_normal r hr) _
    rw [this]
    simp only [boundaries2D, List.forall_mem_cons, HS.eval, Fin.sum_univ_two]
    simp
    tauto

/-- **C16 (3D).** Row `j` of the normalised halfspace array is satisfied by `(γ, ω, Q)` iff
`Q ≥ A_j - γ P_j + ω C_j` and tight iff equality holds; the remaining rows describe exactly the window; no row is divided
by a zero norm. -/
theorem c16_encoding_3D (A P C : List ℝ) (γ₀ γf ω₀ ωf : ℝ) (hlen : A.length = P.length) (hlen' : P.length = C.length)
    {hs : List (HS 3)} (h : champ3DHalfspaces A P C γ₀ γf ω₀ ωf = .ok hs) :
    hs.length = A.length + 6 ∧
    (∀ (j : Nat) (a p c : ℝ), A[j]? = some a → P[j]? = some p → C[j]? = some c → ∃ row : HS 3, hs[j]? = some row ∧
      ∀ γ ω Q, (row.eval ![γ, ω, Q] ≤ 0 ↔ a - γ * p + ω * c ≤ Q) ∧ (row.eval ![γ, ω, Q] = 0 ↔ Q = a - γ * p + ω * c)) ∧
    (∃ top bottom, (∀ (j : Nat) (a p c : ℝ), A[j]? = some a → P[j]? = some p → C[j]? = some c →
        a - γ₀ * p + ωf * c ≤ top ∧ bottom ≤ a - γf * p + ω₀ * c) ∧
      ∀ γ ω Q, (∀ row ∈ hs.drop A.length, row.eval ![γ, ω, Q] ≤ 0) ↔
        (γ₀ ≤ γ ∧ γ ≤ γf) ∧ (ω₀ ≤ ω ∧ ω ≤ ωf) ∧ bottom ≤ Q ∧ Q ≤ top) ∧
    ∃ raw : List (HS 3), hs = raw.map HS.normalise ∧ ∀ r ∈ raw, 0 < r.rowNorm := by
  unfold champ3DHalfspaces at h
  rw [Py.bind_ok] at h
  obtain ⟨top, htop, h⟩ := h
  rw [Py.bind_ok] at h
  obtain ⟨bottom, hbot, h⟩ := h
  have h : hsArray3D (A.zip (P.zip C)) top bottom γ₀ γf ω₀ ωf = hs := by injection h
  subst h
  rw [pyMax_ok] at htop
  rw [pyMin_ok] at hbot
  have hz : ∀ {j : Nat} {a p c : ℝ}, A[j]? = some a → P[j]? = some p → C[j]? = some c →
      (A.zip (P.zip C))[j]? = some (a, p, c) := by
    intro j a p c ha hp hc
    rw [List.getElem?_zip_eq_some]
    exact ⟨ha, by rw [List.getElem?_zip_eq_some]; exact ⟨hp, hc⟩⟩
  have hzl : (A.zip (P.zip C)).length = A.length := by
    rw [List.length_zip, List.length_zip, ← hlen', ← hlen, min_self, min_self]
  refine ⟨?_, ?_, ⟨top, bottom, ?_, ?_⟩, ⟨_, rfl, fun r hr => rowNorm_pos (raw_normals3D r hr)⟩⟩
  · unfold hsArray3D; simp [boundaries3D, hlen, hlen']
  · intro j a p c ha hp hc
    refine ⟨_, hsArray3D_get (hz ha hp hc), fun γ ω Q => ?_⟩
    rw [normalise_le (halfspace3D_normal _), normalise_eq (halfspace3D_normal _), eval_halfspace3D]
    unfold val3
    simp only [Matrix.cons_val_zero, Matrix.cons_val_one, Matrix.cons_val]
    constructor <;> constructor <;> intro h <;> linarith
  · intro j a p c ha hp hc
    have hm := List.mem_of_getElem? (hz ha hp hc)
    have h1 := htop.2 _ (List.mem_map.mpr ⟨_, hm, rfl⟩)
    have h2 := hbot.2 _ (List.mem_map.mpr ⟨_, hm, rfl⟩)
    simp only at h1 h2
    constructor <;> linarith
  · intro γ ω Q
    have hd : (hsArray3D (A.zip (P.zip C)) top bottom γ₀ γf ω₀ ωf).drop A.length =
        (boundaries3D top bottom γ₀ γf ω₀ ωf).map HS.normalise := by
      unfold hsArray3D
      rw [List.map_append, List.drop_left' (by rw [List.length_map, List.length_map, hzl])]
    rw [hd, List.forall_mem_map]
    have : (∀ r ∈ boundaries3D top bottom γ₀ γf ω₀ ωf, r.normalise.eval ![γ, ω, Q] ≤ 0) ↔
        ∀ r ∈ boundaries3D top bottom γ₀ γf ω₀ ωf, r.eval ![γ, ω, Q] ≤ 0 :=
      forall₂_congr fun r hr => normalise_le (boundaries3D_normal r hr) _
    rw [this]
    simp only [boundaries3D, List.forall_mem_cons, HS.eval, Fin.sum_univ_three]
    simp
    tauto

example : ∃ hs, champ2DHalfspaces [4, 2] [4, 1] 0 2 = .ok hs := by
  have h1 : pyMax (([4, 2] : List ℝ).zip [4, 1] |>.map fun ap => ap.1 - ap.2 * 0) = .ok 4 := by
    rw [pyMax_ok]; norm_num
  have h2 : pyMin (([4, 2] : List ℝ).zip [4, 1] |>.map fun ap => ap.1 - ap.2 * 2) = .ok (-4) := by
    rw [pyMin_ok]; norm_num
  unfold champ2DHalfspaces
  rw [h1, h2]
  exact ⟨_, rfl⟩

example : ∃ hs, champ3DHalfspaces [4, 2] [4, 1] [0, 3] 0 2 0 1 = .ok hs := by
  have h1 : pyMax (([4, 2] : List ℝ).zip (([4, 1] : List ℝ).zip [0, 3]) |>.map
      fun apc => apc.1 - apc.2.1 * 0 + apc.2.2 * 1) = .ok 5 := by
    rw [pyMax_ok]; norm_num
  have h2 : pyMin (([4, 2] : List ℝ).zip (([4, 1] : List ℝ).zip [0, 3]) |>.map
      fun apc => apc.1 - apc.2.1 * 2 + apc.2.2 * 0) = .ok (-4) := by
    rw [pyMin_ok]; norm_num
  unfold champ3DHalfspaces
  rw [h1, h2]
  exact ⟨_, rfl⟩

theorem champ3D_nil : champ3D env Gi Gx layer ([] : List (List α)) γ₀ γf ω₀ ωf = (some (.ok []) : Option _) := rfl

/-- **C21.** Every returned domain: its partition is one of the inputs, its vertices lie in the window, and the convex
hull of the vertices is *exactly* the set of points of the window where that partition's multilayer modularity is maximal
among all inputs. -/
theorem c21_domains_correct (he : SoundEnv env) (hM : Multilayer Gi Gx layer)
    (hp : ∀ c ∈ parts, c.length = Gi.vcount)
    (h : champ3D env Gi Gx layer parts γ₀ γf ω₀ ωf = (some (.ok doms) : Option _)) :
    ∀ d ∈ doms, d.2 ∈ parts ∧
      (∀ q ∈ d.1, (γ₀ ≤ q.1 ∧ q.1 ≤ γf) ∧ ω₀ ≤ q.2 ∧ q.2 ≤ ωf) ∧
      ∀ q : ℝ × ℝ, q ∈ convexHull ℝ {q | q ∈ d.1} ↔
        ((γ₀ ≤ q.1 ∧ q.1 ≤ γf) ∧ ω₀ ≤ q.2 ∧ q.2 ≤ ωf) ∧
        ∀ c ∈ parts, multilayerModularity Gi Gx layer q.1 q.2 c ≤ multilayerModularity Gi Gx layer q.1 q.2 d.2 := by
  by_cases hne : parts = []
  · subst hne; rw [champ3D_nil] at h; cases h; simp
  obtain ⟨-, -, keys, dom, part, hnd, hr, hk, -, -⟩ := champ3D_facts he hM hp hne h
  intro d hd
  rw [hr] at hd
  obtain ⟨j, hj, rfl⟩ := List.mem_map.mp hd
  obtain ⟨h1, h2, -⟩ := hk j hj
  exact ⟨List.mem_of_getElem? h1, fun q hq => ((h2 q).mp (subset_convexHull ℝ _ hq)).1, h2⟩

/-- **C21.** With exact LP solving, an undirected intralayer graph with an edge in every layer, at least one partition
and a window with non-empty interior, `CHAMP_3D` returns. -/
theorem c21_returns (he : ExactEnv env) (hM : Multilayer Gi Gx layer) (hd : Gi.directed = false) (hn : layer ≠ [])
    (hedge : ∀ t ∈ layer, ∃ e ∈ Gi.edges, layer[e.1]? = some t) (hp : ∀ c ∈ parts, c.length = Gi.vcount)
    (hne : parts ≠ []) (hγ : γ₀ < γf) (hω : ω₀ < ωf) :
    ∃ doms, champ3D env Gi Gx layer parts γ₀ γf ω₀ ωf = (some (.ok doms) : Option _) := by
  set L := coefs3D Gi Gx layer parts with hL
  have hLne : L ≠ [] := by intro h; exact hne (List.map_eq_nil_iff.mp h)
  have hene : Gi.edges ≠ [] := by
    obtain ⟨t, ht⟩ := List.exists_mem_of_ne_nil _ hn
    obtain ⟨e, he, -⟩ := hedge t ht
    exact List.ne_nil_of_mem he
  have hP : ∀ t ∈ L, 0 < t.2.1 := by
    intro t ht
    obtain ⟨c, -, rfl⟩ := List.mem_map.mp ht
    exact withinNullLayered_pos hM.intra hd hM.layers hene c
  have hC : ∀ t ∈ L, 0 ≤ t.2.2 := by
    intro t ht
    obtain ⟨c, -, rfl⟩ := List.mem_map.mp ht
    exact withinAdj_nonneg Gx c
  obtain ⟨at', hat, hatm⟩ := exists_max_list L (fun t => val3 t γ₀ ωf) hLne
  obtain ⟨ab, hab, habm⟩ := exists_max_list L (fun t => -(val3 t γf ω₀)) hLne
  have htop : pyMax (L.map fun t => val3 t γ₀ ωf) = .ok (val3 at' γ₀ ωf) := by
    rw [pyMax_ok]
    refine ⟨List.mem_map.mpr ⟨at', hat, rfl⟩, fun x hx => ?_⟩
    obtain ⟨t, ht, rfl⟩ := List.mem_map.mp hx
    exact hatm t ht
  have hbot : pyMin (L.map fun t => val3 t γf ω₀) = .ok (val3 ab γf ω₀) := by
    rw [pyMin_ok]
    refine ⟨List.mem_map.mpr ⟨ab, hab, rfl⟩, fun x hx => ?_⟩
    obtain ⟨t, ht, rfl⟩ := List.mem_map.mp hx
    have := habm t ht
    linarith
  refine (champ3D_from_coefs he hM hn hedge hp hne htop hbot).1 ?_
  set g := (γ₀ + γf) / 2 with hg
  set w := (ω₀ + ωf) / 2 with hw
  obtain ⟨am, ham, hamm⟩ := exists_max_list L (fun t => val3 t g w) hLne
  have h1 : val3 am g w < val3 at' γ₀ ωf := by
    have e1 := hatm am ham
    have e2 := mul_lt_mul_of_pos_left (show γ₀ < g by rw [hg]; linarith) (hP am ham)
    have e3 := mul_le_mul_of_nonneg_left (show w ≤ ωf by rw [hw]; linarith) (hC am ham)
    unfold val3 at *; linarith
  have h2 : val3 ab γf ω₀ < val3 am g w := by
    have e1 := hamm ab hab
    have e2 := mul_lt_mul_of_pos_left (show g < γf by rw [hg]; linarith) (hP ab hab)
    have e3 := mul_le_mul_of_nonneg_left (show ω₀ ≤ w by rw [hw]; linarith) (hC ab hab)
    unfold val3 at *; linarith
  refine ⟨![g, w, (val3 am g w + val3 at' γ₀ ωf) / 2], ?_⟩
  rw [interior3D]
  simp only [Matrix.cons_val_zero, Matrix.cons_val_one, Matrix.cons_val]
  refine ⟨fun t ht => ?_, by linarith, by linarith, by rw [hg]; linarith, by rw [hg]; linarith, by rw [hw]; linarith,
    by rw [hw]; linarith⟩
  have := hamm t ht
  linarith

theorem triangle_interior {K : Set (ℝ × ℝ)} (hK : Convex ℝ K) {z : ℝ × ℝ} {ε : ℝ} (hε : 0 < ε) (hz : z ∈ K)
    (h1 : (z.1 + ε, z.2) ∈ K) (h2 : (z.1, z.2 + ε) ∈ K) : (interior K).Nonempty := by
  refine ⟨(z.1 + ε / 3, z.2 + ε / 3), mem_interior_iff_mem_nhds.mpr (Metric.mem_nhds_iff.mpr ⟨ε / 6, by linarith, ?_⟩)⟩
  rintro ⟨a, b⟩ hab
  rw [Metric.mem_ball, Prod.dist_eq, max_lt_iff, Real.dist_eq, Real.dist_eq, abs_lt, abs_lt] at hab
  obtain ⟨⟨a1, a2⟩, b1, b2⟩ := hab
  simp only at a1 a2 b1 b2
  have key := hK.sum_mem (t := Finset.univ) (w := ![(a - z.1) / ε, (b - z.2) / ε, 1 - (a - z.1) / ε - (b - z.2) / ε])
    (z := ![(z.1 + ε, z.2), (z.1, z.2 + ε), z]) ?_ ?_ ?_
  · rw [Fin.sum_univ_three] at key
    simp only [Matrix.cons_val_zero, Matrix.cons_val_one, Matrix.cons_val] at key
    convert key using 1
    ext
    · simp; field_simp; ring
    · simp; field_simp; ring
  · intro i _
    have e1 : 0 ≤ (a - z.1) / ε := div_nonneg (by linarith) hε.le
    have e2 : 0 ≤ (b - z.2) / ε := div_nonneg (by linarith) hε.le
    have e3 : (a - z.1) / ε + (b - z.2) / ε ≤ 1 := by rw [← add_div, div_le_one hε]; linarith
    fin_cases i
    · exact e1
    · exact e2
    · show 0 ≤ 1 - (a - z.1) / ε - (b - z.2) / ε
      linarith
  · rw [Fin.sum_univ_three]
    simp only [Matrix.cons_val_zero, Matrix.cons_val_one, Matrix.cons_val]
    ring
  · intro i _
    fin_cases i
    · exact h1
    · exact h2
    · exact hz

/-- **C22.** Every point of the closed window lies in (the convex hull of) some returned domain, whose partition attains
the best multilayer modularity among all inputs there. -/
theorem c22_domains_cover (he : SoundEnv env) (hM : Multilayer Gi Gx layer)
    (hp : ∀ c ∈ parts, c.length = Gi.vcount) (hne : parts ≠ [])
    (h : champ3D env Gi Gx layer parts γ₀ γf ω₀ ωf = (some (.ok doms) : Option _)) {γ ω : ℝ}
    (hγ : γ₀ ≤ γ ∧ γ ≤ γf) (hω : ω₀ ≤ ω ∧ ω ≤ ωf) :
    ∃ d ∈ doms, (γ, ω) ∈ convexHull ℝ {q | q ∈ d.1} ∧
      ∀ c ∈ parts, multilayerModularity Gi Gx layer γ ω c ≤ multilayerModularity Gi Gx layer γ ω d.2 := by
  have hsound := c21_domains_correct he hM hp h
  suffices hs : ∃ d ∈ doms, (γ, ω) ∈ convexHull ℝ {q | q ∈ d.1} by
    obtain ⟨d, hd, h1⟩ := hs
    exact ⟨d, hd, h1, (((hsound d hd).2.2 _).mp h1).2⟩
  obtain ⟨⟨hγ', hω'⟩, -, keys, dom, part, hnd, hr, hk, -, hcov⟩ := champ3D_facts he hM hp hne h
  have hclosed : IsClosed {q : ℝ × ℝ | ∃ d ∈ doms, q ∈ convexHull ℝ {q | q ∈ d.1}} := by
    have : {q : ℝ × ℝ | ∃ d ∈ doms, q ∈ convexHull ℝ {q | q ∈ d.1}} =
        ⋃ d ∈ {d | d ∈ doms}, convexHull ℝ {q | q ∈ d.1} := by
      ext q; simp
    rw [this]
    exact Set.Finite.isClosed_biUnion (List.finite_toSet doms) fun d _ =>
      (List.finite_toSet d.1).isClosed_convexHull (𝕜 := ℝ)
  have hsub : Set.Ioo γ₀ γf ×ˢ Set.Ioo ω₀ ωf ⊆ {q : ℝ × ℝ | ∃ d ∈ doms, q ∈ convexHull ℝ {q | q ∈ d.1}} := by
    rintro ⟨g, w⟩ ⟨hg, hw⟩
    obtain ⟨j, hj, hopt⟩ := hcov g w hg.1 hg.2 hw.1 hw.2
    refine ⟨(dom j, part j), by rw [hr]; exact List.mem_map.mpr ⟨j, hj, rfl⟩, ?_⟩
    exact ((hk j hj).2.1 (g, w)).mpr ⟨⟨⟨hg.1.le, hg.2.le⟩, hw.1.le, hw.2.le⟩, hopt⟩
  have hcl := closure_minimal hsub hclosed
  rw [closure_prod_eq, closure_Ioo hγ'.ne, closure_Ioo hω'.ne] at hcl
  exact hcl ⟨⟨hγ.1, hγ.2⟩, ⟨hω.1, hω.2⟩⟩

/-- **C22.** The domains are those of pairwise different input positions, and they have pairwise disjoint, non-empty
interiors. -/
theorem c22_domains_disjoint (he : SoundEnv env) (hM : Multilayer Gi Gx layer)
    (hp : ∀ c ∈ parts, c.length = Gi.vcount)
    (h : champ3D env Gi Gx layer parts γ₀ γf ω₀ ωf = (some (.ok doms) : Option _)) :
    (∃ pos : List Nat, pos.Nodup ∧ List.Forall₂ (fun j d => parts[j]? = some d.2) pos doms) ∧
    doms.Pairwise (fun d e => ∃ γ ω, multilayerModularity Gi Gx layer γ ω d.2 ≠ multilayerModularity Gi Gx layer γ ω e.2) ∧
    doms.Pairwise (fun d e =>
      interior (convexHull ℝ {q | q ∈ d.1}) ∩ interior (convexHull ℝ {q | q ∈ e.1}) = ∅) ∧
    ∀ d ∈ doms, (interior (convexHull ℝ {q | q ∈ d.1})).Nonempty := by
  by_cases hne : parts = []
  · subst hne
    rw [champ3D_nil] at h; cases h
    exact ⟨⟨[], List.nodup_nil, List.Forall₂.nil⟩, List.Pairwise.nil, List.Pairwise.nil, by simp⟩
  obtain ⟨⟨hγ', hω'⟩, -, keys, dom, part, hnd, hr, hk, hdist, hcov⟩ := champ3D_facts he hM hp hne h
  have hpw : keys.Pairwise fun j k => ¬ ∀ γ ω, multilayerModularity Gi Gx layer γ ω (part j) =
      multilayerModularity Gi Gx layer γ ω (part k) := by
    refine List.Pairwise.imp_of_mem ?_ hnd
    intro j k hj hk' hjk hall
    refine hdist j hj k hk' hjk ?_
    have e0 := hall 0 0
    have e1 := hall 1 0
    have e2 := hall 0 1
    unfold multilayerModularity at e0 e1 e2
    refine ⟨by linarith, by linarith, by linarith⟩
  refine ⟨⟨keys, hnd, ?_⟩, ?_, ?_, ?_⟩
  · rw [hr, List.forall₂_map_right_iff, List.forall₂_same]
    exact fun j hj => (hk j hj).1
  · rw [hr, List.pairwise_map]
    refine hpw.imp ?_
    intro j k hjk
    push Not at hjk
    exact hjk
  · rw [hr, List.pairwise_map]
    refine List.Pairwise.imp_of_mem ?_ hpw
    intro j k hj hk' hjk
    rw [Set.eq_empty_iff_forall_notMem]
    rintro q ⟨h1, h2⟩
    apply hjk
    have hopen : interior (convexHull ℝ {q | q ∈ dom j}) ∩ interior (convexHull ℝ {q | q ∈ dom k}) ∈ nhds q :=
      (isOpen_interior.inter isOpen_interior).mem_nhds ⟨h1, h2⟩
    obtain ⟨ε, hε, hball⟩ := Metric.mem_nhds_iff.mp hopen
    have heq : ∀ a b : ℝ, |a| < ε → |b| < ε →
        multilayerModularity Gi Gx layer (q.1 + a) (q.2 + b) (part j) =
        multilayerModularity Gi Gx layer (q.1 + a) (q.2 + b) (part k) := by
      intro a b ha hb
      have hm : ((q.1 + a, q.2 + b) : ℝ × ℝ) ∈ Metric.ball q ε := by
        rw [Metric.mem_ball, Prod.dist_eq, max_lt_iff]
        constructor
        · simpa [Real.dist_eq] using ha
        · simpa [Real.dist_eq] using hb
      obtain ⟨m1, m2⟩ := hball hm
      have o1 := ((hk j hj).2.1 _).mp (interior_subset m1)
      have o2 := ((hk k hk').2.1 _).mp (interior_subset m2)
      exact le_antisymm (o2.2 _ (List.mem_of_getElem? (hk j hj).1)) (o1.2 _ (List.mem_of_getElem? (hk k hk').1))
    have hε2 : |ε / 2| < ε := by rw [abs_of_pos (by linarith)]; linarith
    have h0 : |(0 : ℝ)| < ε := by simpa using hε
    have e0 := heq 0 0 h0 h0
    have e1 := heq (ε / 2) 0 hε2 h0
    have e2 := heq 0 (ε / 2) h0 hε2
    unfold multilayerModularity at e0 e1 e2 ⊢
    have hP : withinNullLayered Gi layer (part j) = withinNullLayered Gi layer (part k) := by
      have : ε / 2 * (withinNullLayered Gi layer (part j) - withinNullLayered Gi layer (part k)) = 0 := by linarith
      rcases mul_eq_zero.mp this with h | h <;> linarith
    have hC : withinAdj Gx (part j) = withinAdj Gx (part k) := by
      have : ε / 2 * (withinAdj Gx (part j) - withinAdj Gx (part k)) = 0 := by linarith
      rcases mul_eq_zero.mp this with h | h <;> linarith
    intro γ ω
    rw [hP, hC] at e0 ⊢
    linarith
  · intro d hd
    rw [hr] at hd
    obtain ⟨j, hj, rfl⟩ := List.mem_map.mp hd
    obtain ⟨-, -, -, -, -, ⟨z, ε, hε, hz, h1, h2⟩, -⟩ := hk j hj
    exact triangle_interior (convex_convexHull ℝ _) hε hz h1 h2

/-- **C22.** An input that is, at some point of the closed window, strictly better than every input whose modularity
differs from its own somewhere is returned, or an input with the same modularity everywhere is, in a domain containing
that point. -/
theorem c22_strictly_optimal_returned (he : SoundEnv env) (hM : Multilayer Gi Gx layer)
    (hp : ∀ c ∈ parts, c.length = Gi.vcount)
    (h : champ3D env Gi Gx layer parts γ₀ γf ω₀ ωf = (some (.ok doms) : Option _)) {c : List α} (hc : c ∈ parts)
    {γ ω : ℝ} (hγ : γ₀ ≤ γ ∧ γ ≤ γf) (hω : ω₀ ≤ ω ∧ ω ≤ ωf)
    (hopt : ∀ c' ∈ parts, (∃ γ' ω', multilayerModularity Gi Gx layer γ' ω' c' ≠ multilayerModularity Gi Gx layer γ' ω' c) →
      multilayerModularity Gi Gx layer γ ω c' < multilayerModularity Gi Gx layer γ ω c) :
    ∃ d ∈ doms, (γ, ω) ∈ convexHull ℝ {q | q ∈ d.1} ∧
      ∀ γ' ω', multilayerModularity Gi Gx layer γ' ω' d.2 = multilayerModularity Gi Gx layer γ' ω' c := by
  obtain ⟨d, hd, h1, h2⟩ := c22_domains_cover he hM hp (List.ne_nil_of_mem hc) h hγ hω
  refine ⟨d, hd, h1, ?_⟩
  by_contra hne
  push Not at hne
  have := hopt d.2 (c21_domains_correct he hM hp h d hd).1 hne
  have := h2 c hc
  linarith

/-- **C23.** Every returned polygon has at least three vertices, all different, and lists them in clockwise boundary order
in the `(γ, ω)` plane; every listed vertex is a genuine corner (extreme point) of the domain. -/
theorem c23_boundary_order (he : SoundEnv env) (hM : Multilayer Gi Gx layer)
    (hp : ∀ c ∈ parts, c.length = Gi.vcount)
    (h : champ3D env Gi Gx layer parts γ₀ γf ω₀ ωf = (some (.ok doms) : Option _)) :
    ∀ d ∈ doms, 3 ≤ d.1.length ∧ d.1.Nodup ∧ Clockwise d.1 ∧
      ∀ q ∈ d.1, q ∈ (convexHull ℝ {q | q ∈ d.1}).extremePoints ℝ := by
  by_cases hne : parts = []
  · subst hne; rw [champ3D_nil] at h; cases h; simp
  obtain ⟨-, -, keys, dom, part, hnd, hr, hk, -, -⟩ := champ3D_facts he hM hp hne h
  intro d hd
  rw [hr] at hd
  obtain ⟨j, hj, rfl⟩ := List.mem_map.mp hd
  obtain ⟨-, -, h3, h4, h5, -, h7⟩ := hk j hj
  exact ⟨h5, h4, h7, h3⟩

/-! ### Witnesses -/

/-- Two layers of a path on three vertices, coupled vertex by vertex. -/
def gIntraR : Graph ℝ := ⟨6, false, [(0, 1), (1, 2), (3, 4), (4, 5)], none⟩
/-- The (directed) coupling of `gIntraR`. -/
def gInterR : Graph ℝ := ⟨6, true, [(0, 3), (1, 4), (2, 5)], none⟩

theorem gIntraR_multilayer : Multilayer gIntraR gInterR [0, 0, 0, 1, 1, 1] where
  intra := ⟨by decide, by intro ws h; cases h⟩
  inter := ⟨by decide, by intro ws h; cases h⟩
  vcount := rfl
  layers := rfl
  noCross := Or.inr (by decide)

example : ∃ doms, champ3D exactEnv gIntraR gInterR [0, 0, 0, 1, 1, 1]
    [[0, 0, 0, 0, 0, 0], [0, 0, 0, 1, 1, 1], [0, 1, 2, 0, 1, 2]] 0 2 0 1 = (some (.ok doms) : Option _) :=
  c21_returns exactEnv_exact gIntraR_multilayer rfl (by decide) (by decide) (by decide) (by decide) (by norm_num)
    (by norm_num)

end Verif.Props
