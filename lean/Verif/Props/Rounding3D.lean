import Verif.Props.FixedPoint
import Verif.Proofs.Champ3DFrom
import Verif.Props.Rounding
import Verif.Props.Explicit3D
import Verif.Props.Champ3D

/-!
# Property C123: `CHAMP_3D` with rounded coefficients
-/

namespace Verif.Props
open Verif Verif.Spec Finset

section
variable {α : Type} [DecidableEq α] {env : ChampEnv} {Gi Gx : Graph ℝ} {layer : List Nat} {parts : List (List α)}
  {A P C : List ℝ} {γ₀ γf ω₀ ωf δ : ℝ} {doms : List (List (ℝ × ℝ) × List α)}

theorem zip3_length (hc : CloseCoefs3D δ Gi Gx layer parts A P C) : (A.zip (P.zip C)).length = parts.length := by
  rw [List.length_zip, List.length_zip, hc.1, hc.2.1, hc.2.2.1, min_self, min_self]

theorem zip3_get {i : Nat} {t : ℝ × ℝ × ℝ} (h : (A.zip (P.zip C))[i]? = some t) :
    A[i]? = some t.1 ∧ P[i]? = some t.2.1 ∧ C[i]? = some t.2.2 := by
  obtain ⟨a, p, c⟩ := t
  rw [List.getElem?_zip_eq_some] at h
  exact ⟨h.1, zip_get (ap := (p, c)) h.2⟩

theorem close3_nn (hc : CloseCoefs3D δ Gi Gx layer parts A P C) :
    (∀ t ∈ A.zip (P.zip C), 0 ≤ t.2.1) ∧ ∀ t ∈ A.zip (P.zip C), 0 ≤ t.2.2 := by
  have key : ∀ t ∈ A.zip (P.zip C), 0 ≤ t.2.1 ∧ 0 ≤ t.2.2 := by
    intro t ht
    obtain ⟨i, hi⟩ := List.mem_iff_getElem?.mp ht
    obtain ⟨h1, h2, h3⟩ := zip3_get hi
    have hil : i < parts.length := by rw [← zip3_length hc]; exact (List.getElem?_eq_some_iff.mp hi).1
    obtain ⟨-, -, e1, -, e2⟩ := hc.2.2.2 i _ _ _ _ (List.getElem?_eq_getElem hil) h1 h2 h3
    exact ⟨e1, e2⟩
  exact ⟨fun t ht => (key t ht).1, fun t ht => (key t ht).2⟩

theorem close3_value (hc : CloseCoefs3D δ Gi Gx layer parts A P C) {i : Nat} {c : List α} {t : ℝ × ℝ × ℝ}
    (h1 : parts[i]? = some c) (h2 : (A.zip (P.zip C))[i]? = some t) (γ ω : ℝ) :
    |val3 t γ ω - multilayerModularity Gi Gx layer γ ω c| ≤ slack3D δ Gi Gx γ ω / 2 := by
  obtain ⟨hA, hP, hC⟩ := zip3_get h2
  obtain ⟨e1, e2, -, e3, -⟩ := hc.2.2.2 i _ _ _ _ h1 hA hP hC
  have e : val3 t γ ω - multilayerModularity Gi Gx layer γ ω c =
      (t.1 - withinAdj Gi c) - γ * (t.2.1 - withinNullLayered Gi layer c) + ω * (t.2.2 - withinAdj Gx c) := by
    unfold val3 multilayerModularity; ring
  rw [e]
  refine (abs_add_le _ _).trans ((add_le_add_left (abs_sub _ _) _).trans ?_)
  rw [abs_mul, abs_mul]
  have := mul_le_mul_of_nonneg_left e2 (abs_nonneg γ)
  have := mul_le_mul_of_nonneg_left e3 (abs_nonneg ω)
  unfold slack3D
  linarith

theorem close3_get (hc : CloseCoefs3D δ Gi Gx layer parts A P C) {c : List α} (h : c ∈ parts) :
    ∃ (i : Nat) (t : ℝ × ℝ × ℝ), parts[i]? = some c ∧ (A.zip (P.zip C))[i]? = some t := by
  obtain ⟨i, hi⟩ := List.mem_iff_getElem?.mp h
  have : i < (A.zip (P.zip C)).length := by rw [zip3_length hc]; exact (List.getElem?_eq_some_iff.mp hi).1
  exact ⟨i, _, hi, List.getElem?_eq_getElem this⟩

/-- **C123 (nearly optimal, multilayer).** With coefficients that are off by at most `δ`, every returned domain lies in the window
and its partition is, throughout the domain, within `slack3D` of the best multilayer modularity of any input. -/
theorem c123_nearly_optimal_3D (hq : ExactQhull env.qhull) (hc : CloseCoefs3D δ Gi Gx layer parts A P C)
    (h : champ3DFrom env parts A P C γ₀ γf ω₀ ωf = (some (.ok doms) : Option _)) :
    ∀ d ∈ doms, d.2 ∈ parts ∧ ∀ q : ℝ × ℝ, q ∈ convexHull ℝ {q | q ∈ d.1} →
      ((γ₀ ≤ q.1 ∧ q.1 ≤ γf) ∧ ω₀ ≤ q.2 ∧ q.2 ≤ ωf) ∧ ∀ c ∈ parts,
        multilayerModularity Gi Gx layer q.1 q.2 c ≤
          multilayerModularity Gi Gx layer q.1 q.2 d.2 + slack3D δ Gi Gx q.1 q.2 := by
  obtain ⟨-, keys, dom, part, coef, -, hr, hk, -, -⟩ :=
    champ3DFrom_facts hq rfl (zip3_length hc) (close3_nn hc).1 (close3_nn hc).2 h
  intro d hd
  rw [hr] at hd
  obtain ⟨j, hj, rfl⟩ := List.mem_map.mp hd
  obtain ⟨h1, h2, h3, -⟩ := hk j hj
  refine ⟨List.mem_of_getElem? h1, fun q hqm => ?_⟩
  obtain ⟨w, hmax⟩ := (h3 q).mp hqm
  refine ⟨w, fun c hcp => ?_⟩
  obtain ⟨i, t, hi1, hi2⟩ := close3_get hc hcp
  have e1 := abs_le.mp (close3_value hc hi1 hi2 q.1 q.2)
  have e2 := abs_le.mp (close3_value hc h1 h2 q.1 q.2)
  have e3 := hmax t (List.mem_of_getElem? hi2)
  linarith [e1.1, e2.2]

/-- **C123 (cover, multilayer).** The returned domains still cover the window. -/
theorem c123_cover_3D (hq : ExactQhull env.qhull) (hc : CloseCoefs3D δ Gi Gx layer parts A P C)
    (h : champ3DFrom env parts A P C γ₀ γf ω₀ ωf = (some (.ok doms) : Option _)) {γ ω : ℝ} (hγ : γ₀ ≤ γ ∧ γ ≤ γf)
    (hω : ω₀ ≤ ω ∧ ω ≤ ωf) : ∃ d ∈ doms, (γ, ω) ∈ convexHull ℝ {q | q ∈ d.1} := by
  obtain ⟨⟨hγ', hω'⟩, keys, dom, part, coef, -, hr, hk, -, hcov⟩ :=
    champ3DFrom_facts hq rfl (zip3_length hc) (close3_nn hc).1 (close3_nn hc).2 h
  have hclosed : IsClosed {q : ℝ × ℝ | ∃ d ∈ doms, q ∈ convexHull ℝ {q | q ∈ d.1}} := by
    have : {q : ℝ × ℝ | ∃ d ∈ doms, q ∈ convexHull ℝ {q | q ∈ d.1}} =
        ⋃ d ∈ {d | d ∈ doms}, convexHull ℝ {q | q ∈ d.1} := by
      ext q; simp
    rw [this]
    exact Set.Finite.isClosed_biUnion (List.finite_toSet doms) fun d _ =>
      (List.finite_toSet d.1).isClosed_convexHull (𝕜 := ℝ)
  have hsub : Set.Ioo γ₀ γf ×ˢ Set.Ioo ω₀ ωf ⊆ {q : ℝ × ℝ | ∃ d ∈ doms, q ∈ convexHull ℝ {q | q ∈ d.1}} := by
    rintro ⟨g, w⟩ ⟨hg, hw⟩
    obtain ⟨j, hj, hopt⟩ := hcov g w hg.1 hg.2 hw.1 hw.2
    refine ⟨(dom j, part j), by rw [hr]; exact List.mem_map.mpr ⟨j, hj, rfl⟩, ?_⟩
    exact ((hk j hj).2.2.1 (g, w)).mpr ⟨⟨⟨hg.1.le, hg.2.le⟩, hw.1.le, hw.2.le⟩, hopt⟩
  have hcl := closure_minimal hsub hclosed
  rw [closure_prod_eq, closure_Ioo hγ'.ne, closure_Ioo hω'.ne] at hcl
  exact hcl ⟨⟨hγ.1, hγ.2⟩, ⟨hω.1, hω.2⟩⟩

/-- **C123 (clear optima, multilayer).** A partition that beats all the others by more than the slack at a point of the window is
returned, with a domain that contains this point. -/
theorem c123_clear_optimum_3D (hq : ExactQhull env.qhull) (hc : CloseCoefs3D δ Gi Gx layer parts A P C)
    (h : champ3DFrom env parts A P C γ₀ γf ω₀ ωf = (some (.ok doms) : Option _)) {c : List α} (hcp : c ∈ parts) {γ ω : ℝ}
    (hγ : γ₀ ≤ γ ∧ γ ≤ γf) (hω : ω₀ ≤ ω ∧ ω ≤ ωf)
    (hopt : ∀ c' ∈ parts, c' ≠ c → multilayerModularity Gi Gx layer γ ω c' + slack3D δ Gi Gx γ ω <
      multilayerModularity Gi Gx layer γ ω c) :
    ∃ d ∈ doms, (γ, ω) ∈ convexHull ℝ {q | q ∈ d.1} ∧ d.2 = c := by
  obtain ⟨d, hd, hm⟩ := c123_cover_3D hq hc h hγ hω
  obtain ⟨hdp, hall⟩ := c123_nearly_optimal_3D hq hc h d hd
  refine ⟨d, hd, hm, ?_⟩
  by_contra hne
  have := hopt _ hdp hne
  have := (hall _ hm).2 c hcp
  simp only at this
  linarith

end

/-! ### Rounding -/

section
variable {α : Type} [DecidableEq α] {env : ChampEnv} {Gi Gx : Graph ℝ} {layer : List Nat} {parts : List (List α)}
  {γ₀ γf ω₀ ωf u : ℝ} {fl : ℝ → ℝ} {doms : List (List (ℝ × ℝ) × List α)}

/-- without rounding it is `CHAMP_3D` -/
theorem c123_exact_3D (env : ChampEnv) (Gi Gx : Graph ℝ) (layer : List Nat) (parts : List (List α)) (γ₀ γf ω₀ ωf : ℝ) :
    champ3DRounded id env Gi Gx layer parts γ₀ γf ω₀ ωf = champ3D env Gi Gx layer parts γ₀ γf ω₀ ωf := by
  unfold champ3DRounded champ3D champ3DFrom
  simp only [List.map_id]

theorem rounded_nonneg (hu1 : u ≤ 1) (hfl : RoundsWithin u fl) {x : ℝ} (hx : 0 ≤ x) : 0 ≤ fl x := by
  have e := (abs_le.mp (hfl x)).1
  rw [abs_of_nonneg hx] at e
  have := mul_le_mul_of_nonneg_right hu1 hx
  linarith

theorem rounded_close (hu : 0 ≤ u) (hfl : RoundsWithin u fl) {x T : ℝ} (hx : 0 ≤ x) (hT : x ≤ T) : |fl x - x| ≤ u * T := by
  have e := hfl x
  rw [abs_of_nonneg hx] at e
  exact e.trans (mul_le_mul_of_nonneg_left hT hu)

theorem rounded_coefs_3D (hu : 0 ≤ u) (hu1 : u ≤ 1) (hfl : RoundsWithin u fl) (hl : layer.length = Gi.vcount) :
    CloseCoefs3D u Gi Gx layer parts ((parts.map (withinAdj Gi)).map fl) ((parts.map (withinNullLayered Gi layer)).map fl)
      ((parts.map (withinAdj Gx)).map fl) := by
  refine ⟨by simp, by simp, by simp, fun i c a p x h1 h2 h3 h4 => ?_⟩
  have key : ∀ f : List α → ℝ, ∀ y, ((parts.map f).map fl)[i]? = some y → y = fl (f c) := fun f y hy => by
    rw [List.map_map, List.getElem?_map, h1] at hy
    exact (Option.some.inj hy).symm
  have n1 := withinNullLayered_nonneg Gi layer c
  have n2 := withinNullLayered_le_total layer hl c
  have n3 := Verif.withinAdj_nonneg Gi c
  have n4 := withinAdj_le Gi c
  have n5 := Verif.withinAdj_nonneg Gx c
  have n6 := withinAdj_le Gx c
  rw [key _ _ h2, key _ _ h3, key _ _ h4]
  exact ⟨rounded_close hu hfl n3 n4, rounded_close hu hfl n1 n2, rounded_nonneg hu1 hfl n1,
    rounded_close hu hfl n5 n6, rounded_nonneg hu1 hfl n5⟩

theorem rounded_from_3D (he : SoundEnv env) (hM : Multilayer Gi Gx layer) (hp : ∀ c ∈ parts, c.length = Gi.vcount)
    (hne : parts ≠ []) (h : champ3DRounded fl env Gi Gx layer parts γ₀ γf ω₀ ωf = (some (.ok doms) : Option _)) :
    champ3DFrom env parts ((parts.map (withinAdj Gi)).map fl) ((parts.map (withinNullLayered Gi layer)).map fl)
      ((parts.map (withinAdj Gx)).map fl) γ₀ γf ω₀ ωf = (some (.ok doms) : Option _) := by
  unfold champ3DRounded at h
  rw [if_neg fun h0 => hne (List.length_eq_zero_iff.mp h0), Run.bind_ok] at h
  obtain ⟨APC, hAPC, h⟩ := h
  rw [Run.bind_ok] at h
  obtain ⟨P, hP, h⟩ := h
  rw [Run.ofPy_ok] at hP
  obtain ⟨-, hA, hPn, hC⟩ := champ3D_coefs he.workers he.rounding he.sched hM hp hne hAPC hP
  rwa [hA, hPn, hC] at h

/-- **C123 (rounding, multilayer).** With all coefficients rounded, `CHAMP_3D` returns domains that cover the window, each with an
input partition whose multilayer modularity is, throughout the domain, within `2 u ((1 + |γ|) totalᵢ + |ω| totalₓ)` of the best
of all inputs; an input better than all others by more than this is not lost. -/
theorem c123_rounded_3D (he : SoundEnv env) (hu : 0 ≤ u) (hu1 : u ≤ 1) (hfl : RoundsWithin u fl) (hM : Multilayer Gi Gx layer)
    (hp : ∀ c ∈ parts, c.length = Gi.vcount) (hne : parts ≠ [])
    (h : champ3DRounded fl env Gi Gx layer parts γ₀ γf ω₀ ωf = (some (.ok doms) : Option _)) :
    (∀ γ ω, γ₀ ≤ γ ∧ γ ≤ γf → ω₀ ≤ ω ∧ ω ≤ ωf → ∃ d ∈ doms, (γ, ω) ∈ convexHull ℝ {q | q ∈ d.1}) ∧
    (∀ d ∈ doms, d.2 ∈ parts ∧ ∀ γ ω, (γ, ω) ∈ convexHull ℝ {q | q ∈ d.1} → ∀ c ∈ parts,
      multilayerModularity Gi Gx layer γ ω c ≤ multilayerModularity Gi Gx layer γ ω d.2 +
        2 * (u * ((1 + |γ|) * total Gi + |ω| * total Gx))) ∧
    ∀ γ ω, γ₀ ≤ γ ∧ γ ≤ γf → ω₀ ≤ ω ∧ ω ≤ ωf → ∀ c ∈ parts, (∀ c' ∈ parts, c' ≠ c →
        multilayerModularity Gi Gx layer γ ω c' + 2 * (u * ((1 + |γ|) * total Gi + |ω| * total Gx)) <
          multilayerModularity Gi Gx layer γ ω c) →
      ∃ d ∈ doms, (γ, ω) ∈ convexHull ℝ {q | q ∈ d.1} ∧ d.2 = c := by
  have hc := rounded_coefs_3D (Gx := Gx) (parts := parts) hu hu1 hfl hM.layers
  have hr := rounded_from_3D he hM hp hne h
  exact ⟨fun γ ω hγ hω => c123_cover_3D he.qhull hc hr hγ hω,
    fun d hd => ⟨(c123_nearly_optimal_3D he.qhull hc hr d hd).1,
      fun γ ω hm => ((c123_nearly_optimal_3D he.qhull hc hr d hd).2 _ hm).2⟩,
    fun γ ω hγ hω c hcp hopt => c123_clear_optimum_3D he.qhull hc hr hcp hγ hω hopt⟩

/-- **C123 (rounding, multilayer).** With exact linear programming it returns whenever the exact computation is known to (C21). -/
theorem c123_rounded_returns_3D (he : ExactEnv env) (hu1 : u < 1) (hfl : RoundsWithin u fl) (hM : Multilayer Gi Gx layer)
    (hd : Gi.directed = false) (hn : layer ≠ []) (hedge : ∀ t ∈ layer, ∃ e ∈ Gi.edges, layer[e.1]? = some t)
    (hp : ∀ c ∈ parts, c.length = Gi.vcount) (hne : parts ≠ []) (hγ : γ₀ < γf) (hω : ω₀ < ωf) :
    ∃ doms, champ3DRounded fl env Gi Gx layer parts γ₀ γf ω₀ ωf = (some (.ok doms) : Option _) := by
  set L := ((parts.map (withinAdj Gi)).map fl).zip (((parts.map (withinNullLayered Gi layer)).map fl).zip
    ((parts.map (withinAdj Gx)).map fl)) with hL
  have hLmap : L = parts.map fun c => (fl (withinAdj Gi c), fl (withinNullLayered Gi layer c), fl (withinAdj Gx c)) := by
    rw [hL]; simp only [List.map_map, List.zip_map']; rfl
  have hLne : L ≠ [] := by rw [hLmap]; intro h; exact hne (List.map_eq_nil_iff.mp h)
  have hene : Gi.edges ≠ [] := by
    obtain ⟨t, ht⟩ := List.exists_mem_of_ne_nil _ hn
    obtain ⟨e, he, -⟩ := hedge t ht
    exact List.ne_nil_of_mem he
  have hP : ∀ t ∈ L, 0 < t.2.1 := by
    intro t ht
    rw [hLmap] at ht
    obtain ⟨c, -, rfl⟩ := List.mem_map.mp ht
    have hpos : (0 : ℝ) < withinNullLayered Gi layer c := withinNullLayered_pos hM.intra hd hM.layers hene c
    have := (abs_le.mp (hfl (withinNullLayered Gi layer c))).1
    rw [abs_of_pos hpos] at this
    have := mul_lt_mul_of_pos_right hu1 hpos
    simp only
    linarith
  have hC : ∀ t ∈ L, 0 ≤ t.2.2 := by
    intro t ht
    rw [hLmap] at ht
    obtain ⟨c, -, rfl⟩ := List.mem_map.mp ht
    exact rounded_nonneg hu1.le hfl (Verif.withinAdj_nonneg Gx c)
  obtain ⟨at', hat, hatm⟩ := exists_max_list L (fun t => val3 t γ₀ ωf) hLne
  obtain ⟨ab, hab, habm⟩ := exists_max_list L (fun t => -(val3 t γf ω₀)) hLne
  have htop : pyMax (L.map fun t => val3 t γ₀ ωf) = .ok (val3 at' γ₀ ωf) := by
    rw [pyMax_ok]
    refine ⟨List.mem_map.mpr ⟨at', hat, rfl⟩, fun x hx => ?_⟩
    obtain ⟨t, ht, rfl⟩ := List.mem_map.mp hx
    exact hatm t ht
  have hbot : pyMin (L.map fun t => val3 t γf ω₀) = .ok (val3 ab γf ω₀) := by
    rw [pyMin_ok]
    refine ⟨List.mem_map.mpr ⟨ab, hab, rfl⟩, fun x hx => ?_⟩
    obtain ⟨t, ht, rfl⟩ := List.mem_map.mp hx
    have := habm t ht
    linarith
  obtain ⟨doms, h⟩ := (champ3DFrom_run (parts := parts) he hL.symm htop hbot).1 (by
    set g := (γ₀ + γf) / 2 with hg
    set w := (ω₀ + ωf) / 2 with hw
    obtain ⟨am, ham, hamm⟩ := exists_max_list L (fun t => val3 t g w) hLne
    have h1 : val3 am g w < val3 at' γ₀ ωf := by
      have e1 := hatm am ham
      have e2 := mul_lt_mul_of_pos_left (show γ₀ < g by rw [hg]; linarith) (hP am ham)
      have e3 := mul_le_mul_of_nonneg_left (show w ≤ ωf by rw [hw]; linarith) (hC am ham)
      unfold val3 at *; linarith
    have h2 : val3 ab γf ω₀ < val3 am g w := by
      have e1 := hamm ab hab
      have e2 := mul_lt_mul_of_pos_left (show g < γf by rw [hg]; linarith) (hP ab hab)
      have e3 := mul_le_mul_of_nonneg_left (show ω₀ ≤ w by rw [hw]; linarith) (hC ab hab)
      unfold val3 at *; linarith
    refine ⟨![g, w, (val3 am g w + val3 at' γ₀ ωf) / 2], ?_⟩
    rw [interior3D]
    simp only [Matrix.cons_val_zero, Matrix.cons_val_one, Matrix.cons_val]
    refine ⟨fun t ht => ?_, by linarith, by linarith, by rw [hg]; linarith, by rw [hg]; linarith, by rw [hw]; linarith,
      by rw [hw]; linarith⟩
    have := hamm t ht
    linarith)
  refine ⟨doms, ?_⟩
  have hser := coefficients3D_ok hM.intra hM.inter hM.vcount hM.layers hn hM.noCross hedge hp
  obtain ⟨r, hr, hiff⟩ := c11_parallel_3D he.workers he.rounding he.sched Gi Gx layer parts
  rw [(hiff _).mpr hser] at hr
  unfold champ3DRounded
  rw [if_neg fun h0 => hne (List.length_eq_zero_iff.mp h0), Run.bind_ok]
  refine ⟨_, hr, ?_⟩
  rw [Run.bind_ok]
  exact ⟨parts.map (withinNullLayered Gi layer), by rw [Run.ofPy_ok, requireFinite_ok, List.map_map]; rfl, h⟩

end

/-- the rounded computation on a two-layer network returns, and covers the window -/
example : ∃ doms, champ3DRounded (fun x => x * (999 / 1000)) exactEnv gIntraR gInterR [0, 0, 0, 1, 1, 1]
      [[0, 0, 1, 0, 0, 1], [0, 0, 0, 0, 0, 0]] 0 2 0 2 = (some (.ok doms) : Option _) ∧
    ∃ d ∈ doms, ((0 : ℝ), (0 : ℝ)) ∈ convexHull ℝ {q | q ∈ d.1} := by
  obtain ⟨doms, h⟩ := c123_rounded_returns_3D (parts := [[0, 0, 1, 0, 0, 1], [0, 0, 0, 0, 0, 0]]) (u := 1 / 1000) exactEnv_exact
    (by norm_num) chop_rounds gIntraR_multilayer rfl (by decide) (by decide) (by decide) (by decide) (by norm_num : (0 : ℝ) < 2)
    (by norm_num : (0 : ℝ) < 2)
  exact ⟨doms, h, (c123_rounded_3D exactEnv_exact.toSoundEnv (by norm_num) (by norm_num) chop_rounds gIntraR_multilayer (by decide)
    (by decide) h).1 0 0 (by norm_num) (by norm_num)⟩

end Verif.Props
