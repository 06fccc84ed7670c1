import Verif.Proofs.Checks
import Verif.Props.Champ3D
import Verif.Props.Coefficients
import Verif.Props.History

/-!
# Property C101: the package's own randomised checks accept every correct result, and only those
-/

namespace Verif.Props
open Verif Spec

variable {q : QualityFn}

/-! ### Coefficients, single layer -/

/-- **C101 (coefficients, single layer, meaning).** Whatever the coefficients: the check passes iff every `A_hat` agrees up to
`0.5e-10` with the within-community adjacency sum of *the graph without its weights*, and every `P_hat` is a number that agrees
with the null-model sum; otherwise it raises `AssertionError`. -/
theorem c101_coefficients_2D_meaning (hq : LeidenalgQuality q) {G : Graph ℝ} (hG : G.WF) {parts : List (List Nat)}
    (hp : ∀ c ∈ parts, c.length = G.vcount) (A : List ℝ) (P : List (Fl ℝ)) :
    (checkCoefficients2D q G parts (A, P) = .ok () ↔ ∀ x ∈ parts.zip (A.zip P),
      Close x.2.1 (withinAdj G x.1) ∧ CloseFl x.2.2 (withinNull G x.1)) ∧
    (checkCoefficients2D q G parts (A, P) = .ok () ∨ checkCoefficients2D q G parts (A, P) = .error .assertionError) :=
  checkCoefficients2D_spec hq hG hp (A, P)

/-- **C101 (coefficients, single layer).** For every graph with an edge – directed or not, weighted or not, multi-edges and
self-loops included –, every list of memberships, every worker count, chunk rounding and completion order:
`partition_coefficients_2D` returns coefficients the check accepts. -/
theorem c101_coefficients_2D_accepted (hq : LeidenalgQuality q) {G : Graph ℝ} (hG : G.WF) (he : 0 < G.ecount)
    {parts : List (List Nat)} (hp : ∀ c ∈ parts, c.length = G.vcount) {rnd : Nat → Nat → Nat} {cpu : Nat}
    (hr : GoodRounding rnd cpu) {sched : List Nat} (hs : ∀ i < cpu, i ∈ sched) (single : Bool) :
    ∃ coeffs, partitionCoefficients2D rnd cpu sched G parts single = some (.ok coeffs) ∧
      checkCoefficients2D q G parts coeffs = .ok () := by
  obtain ⟨r, h1, h2⟩ := c11_parallel_2D hr hs G parts single
  have h3 := coefficients2D_ok hG he hp
  obtain rfl := (h2 _).mpr h3
  refine ⟨_, h1, ((c101_coefficients_2D_meaning hq hG hp _ _).1).mpr ?_⟩
  intro x hx
  have : ∀ l : List (List Nat), ∀ x ∈ l.zip ((l.map (withinAdj G)).zip ((l.map (withinNull G)).map Fl.fin)),
      x.2.1 = (withinAdj G x.1 : ℝ) ∧ x.2.2 = Fl.fin (withinNull G x.1 : ℝ) := by
    intro l
    induction l with
    | nil => simp
    | cons c l ih =>
      intro x hx
      simp only [List.map_cons, List.zip_cons_cons, List.mem_cons] at hx
      rcases hx with rfl | hx
      · exact ⟨rfl, rfl⟩
      · exact ih x hx
  obtain ⟨e1, e2⟩ := this parts x (by rw [List.map_map]; exact hx)
  rw [e1, e2]
  exact ⟨close_self _, closeFl_self _⟩

/-- **C101 (coefficients, single layer, limit).** On an edgeless graph the coefficients exist (`P_hat` is NaN) but the check
rejects them: it cannot be used there. -/
theorem c101_edgeless_rejected (hq : LeidenalgQuality q) {G : Graph ℝ} (hG : G.WF) (he : G.ecount = 0)
    {parts : List (List Nat)} (hp : ∀ c ∈ parts, c.length = G.vcount) (hne : parts ≠ []) {rnd : Nat → Nat → Nat} {cpu : Nat}
    (hr : GoodRounding rnd cpu) {sched : List Nat} (hs : ∀ i < cpu, i ∈ sched) (single : Bool) :
    ∃ coeffs, partitionCoefficients2D rnd cpu sched G parts single = some (.ok coeffs) ∧
      checkCoefficients2D q G parts coeffs = .error .assertionError := by
  obtain ⟨r, h1, h2⟩ := c11_parallel_2D hr hs G parts single
  obtain rfl := (h2 _).mpr (((c12_failures_2D (F := ℝ) hG).1 hp).2 he)
  refine ⟨_, h1, ?_⟩
  obtain ⟨g1, g2⟩ := c101_coefficients_2D_meaning hq hG hp (parts.map fun _ => 0) (parts.map fun _ => .nan)
  refine g2.resolve_left fun hok => ?_
  obtain ⟨c, l, rfl⟩ := List.exists_cons_of_ne_nil hne
  obtain ⟨-, r, hr, -⟩ := g1.mp hok (c, 0, .nan) (by simp)
  cases hr

/-! ### Coefficients, multilayer -/

variable {env : LeidenEnv} {heap : Nat → Graph ℝ}

/-- **C101 (coefficients, multilayer, meaning).** In every process state reached by calls of the Leiden functions, for every
multilayer network that is unweighted once the package has added its default weights and has no intralayer edge between
layers, and every iteration order of the set of layers: the check passes iff all three coefficients of every membership agree
with the multilayer modularity sums up to `0.5e-10`; otherwise it raises `AssertionError`. -/
theorem c101_coefficients_3D_meaning (hq : LeidenalgQuality q) (hheap : ∀ o, (heap o).WF ∧ SaneTest env.test (heap o))
    {obj : Nat} {Gx : Graph ℝ} {layers order : List Nat} (ho : order.Perm layers.dedup)
    (hM : Multilayer (heap obj) Gx layers) (hx : ∀ e ∈ (heap obj).edges, layers[e.1]? = layers[e.2]?) (hn : layers ≠ [])
    (hwi : UnitWeights (defaulted env.test (heap obj))) (hwx : UnitWeights (defaulted env.test Gx)) {parts : List (List Nat)}
    (hp : ∀ c ∈ parts, c.length = (heap obj).vcount) (A : List ℝ) (P : List (Fl ℝ)) (C : List ℝ) {w : World}
    (hw : Reachable env heap w) :
    let r := (checkCoefficients3D q env.test order obj (heap obj) Gx layers parts (A, P, C) w).1
    let Agree := ∀ x ∈ parts.zip (A.zip (P.zip C)), Close x.2.1 (withinAdj (heap obj) x.1) ∧
      CloseFl x.2.2.1 (withinNullLayered (heap obj) layers x.1) ∧ Close x.2.2.2 (withinAdj Gx x.1)
    (Agree → ∃ s, r = .ok s) ∧ (¬ Agree → r = .error .assertionError) := by
  intro r Agree
  have := progFold_spec (body := checkCoefficient3D q env.test order obj layers)
    (I := fun s => defaulted env.test s.1 = defaulted env.test (heap obj) ∧ defaulted env.test s.2 = defaulted env.test Gx)
    (J := fun w => w.cache.Inv (splitByKey fun o => defaulted env.test (heap o)) ∧ w.cache.cap = 1)
    (l := parts.zip (A.zip (P.zip C)))
    (fun x hx' s w hs hw => checkCoefficient3D_spec hq ho hM hx hn hwi hwx s hs x (hp _ (List.of_mem_zip hx').1) hw)
    (heap obj, Gx) w ⟨rfl, rfl⟩ (reachable_inv hheap hw)
  rcases this.2 with ⟨h1, s, h2, -⟩ | ⟨h1, h2⟩
  · exact ⟨fun _ => ⟨s, h2⟩, fun h => absurd h1 h⟩
  · exact ⟨fun h => absurd h h1, fun _ => h2⟩

/-- **C101 (coefficients, multilayer).** If moreover every layer has an intralayer edge, `partition_coefficients_3D` returns
coefficients the check accepts, for every worker count, rounding and completion order and in every reachable state. -/
theorem c101_coefficients_3D_accepted (hq : LeidenalgQuality q) (hheap : ∀ o, (heap o).WF ∧ SaneTest env.test (heap o))
    {obj : Nat} {Gx : Graph ℝ} {layers order : List Nat} (ho : order.Perm layers.dedup)
    (hM : Multilayer (heap obj) Gx layers) (hx : ∀ e ∈ (heap obj).edges, layers[e.1]? = layers[e.2]?) (hn : layers ≠ [])
    (hedge : ∀ t ∈ layers, ∃ e ∈ (heap obj).edges, layers[e.1]? = some t)
    (hwi : UnitWeights (defaulted env.test (heap obj))) (hwx : UnitWeights (defaulted env.test Gx)) {parts : List (List Nat)}
    (hp : ∀ c ∈ parts, c.length = (heap obj).vcount) {rnd : Nat → Nat → Nat} {cpu : Nat} (hcpu : 1 ≤ cpu)
    (hr : GoodRounding rnd cpu) {sched : List Nat} (hs : ∀ i < cpu, i ∈ sched) {w : World} (hw : Reachable env heap w) :
    ∃ coeffs s, partitionCoefficients3D rnd cpu sched (heap obj) Gx layers parts = some (.ok coeffs) ∧
      (checkCoefficients3D q env.test order obj (heap obj) Gx layers parts coeffs w).1 = .ok s := by
  obtain ⟨r, h1, h2⟩ := c11_parallel_3D hcpu hr hs (heap obj) Gx layers parts
  obtain ⟨A, P, C, h3, rfl, rfl, rfl, -⟩ := c08_coefficients_multilayer hM.intra hM.inter hM.vcount hM.layers hn (Or.inr hx)
    hedge hp
  obtain rfl := (h2 _).mpr h3
  obtain ⟨s, h4⟩ := (c101_coefficients_3D_meaning hq hheap ho hM hx hn hwi hwx hp _ _ _ hw).1 (by
    have : ∀ l : List (List Nat), ∀ x ∈ l.zip ((l.map (withinAdj (heap obj))).zip
        (((l.map (withinNullLayered (heap obj) layers)).map Fl.fin).zip (l.map (withinAdj Gx)))),
        x.2.1 = (withinAdj (heap obj) x.1 : ℝ) ∧ x.2.2.1 = Fl.fin (withinNullLayered (heap obj) layers x.1 : ℝ) ∧
          x.2.2.2 = (withinAdj Gx x.1 : ℝ) := by
      intro l
      induction l with
      | nil => simp
      | cons c l ih =>
        intro x hx
        simp only [List.map_cons, List.zip_cons_cons, List.mem_cons] at hx
        rcases hx with rfl | hx
        · exact ⟨rfl, rfl, rfl⟩
        · exact ih x hx
    intro x hx
    obtain ⟨e1, e2, e3⟩ := this parts x hx
    rw [e1, e2, e3]
    exact ⟨close_self _, closeFl_self _, close_self _⟩)
  exact ⟨_, s, h1, h4⟩

/-! ### Ranges -/

/-- The first element with a property. -/
theorem find?_first {β : Type} {l : List β} {p : β → Bool} {x : β} : l.find? p = some x ↔
    p x = true ∧ ∃ before after, l = before ++ x :: after ∧ ∀ y ∈ before, p y = false := by
  rw [List.find?_eq_some_iff_append]; simp

theorem best_close {β : Type} {l : List β} {f : β → ℝ} {y : β} (hy : y ∈ l) {best : ℝ} (hb : pyMax (l.map f) = .ok best) :
    Close best (f y) ↔ ∀ x ∈ l, f x ≤ f y + 5 / 10 ^ 11 := by
  obtain ⟨h1, h2⟩ := pyMax_ok.mp hb
  obtain ⟨z, hz, rfl⟩ := List.mem_map.mp h1
  have hyz : f y ≤ f z := h2 _ (List.mem_map.mpr ⟨y, hy, rfl⟩)
  unfold Close
  rw [abs_of_nonneg (by linarith)]
  constructor
  · intro h x hx
    have := h2 _ (List.mem_map.mpr ⟨x, hx, rfl⟩)
    linarith
  · intro h
    have := h z hz
    linarith

theorem pyMax_map_exists {β : Type} {l : List β} (hl : l ≠ []) (f : β → ℝ) : ∃ best, pyMax (l.map f) = .ok best := by
  obtain ⟨x, hx, hm⟩ := exists_max_list l f hl
  exact ⟨f x, pyMax_ok.mpr ⟨List.mem_map.mpr ⟨x, hx, rfl⟩, by
    intro y hy; obtain ⟨z, hz, rfl⟩ := List.mem_map.mp hy; exact hm z hz⟩⟩

/-- **C101 (ranges, meaning).** For every list of ranges over the given partitions – right or wrong –, and every list of
gammas: the check passes iff at every gamma some range contains it and the partition of the *first* such range has the best
modularity up to `0.5e-10`; otherwise it raises `AssertionError`. -/
theorem c101_ranges_meaning (hq : LeidenalgQuality q) {G : Graph ℝ} (hG : G.WF) {parts : List (List Nat)}
    (hp : ∀ c ∈ parts, c.length = G.vcount) (hne : parts ≠ []) {ranges : List (ℝ × ℝ × List Nat)}
    (hr : ∀ r ∈ ranges, r.2.2 ∈ parts) (gammas : List ℝ) :
    (checkRanges2D q G parts ranges gammas = .ok () ↔ ∀ γ ∈ gammas, ∃ before r after, ranges = before ++ r :: after ∧
      (r.1 ≤ γ ∧ γ ≤ r.2.1) ∧ (∀ x ∈ before, ¬ (x.1 ≤ γ ∧ γ ≤ x.2.1)) ∧
      ∀ c ∈ parts, modularity G γ c ≤ modularity G γ r.2.2 + 5 / 10 ^ 11) ∧
    (checkRanges2D q G parts ranges gammas = .ok () ∨ checkRanges2D q G parts ranges gammas = .error .assertionError) := by
  have hobjs : (parts.mapM fun p => (leidenPartObj G p : Py (PartObj ℝ ℝ))) =
      .ok (parts.map fun p => ⟨.rb (unweighted G) 1, p⟩) := by
    clear hne hr
    induction parts with
    | nil => rfl
    | cons p ps ih =>
      rw [List.mapM_cons, leidenPartObj_ok G (hp p (by simp)), ih fun c hc => hp c (by simp [hc])]
      rfl
  have hqual : ∀ p ∈ parts, ∀ γ, (⟨.rb (unweighted G) 1, p⟩ : PartObj ℝ ℝ).quality q γ = modularity G γ p := by
    intro p hpm γ
    rw [leidenObj_quality hq hG (hp p hpm), modularity_eq]
  unfold checkRanges2D
  rw [hobjs, Py.ok_bind]
  refine pyFor_spec _ fun γ _ => ?_
  have hmap : ((parts.map fun p => (⟨.rb (unweighted G) 1, p⟩ : PartObj ℝ ℝ)).map fun p => p.quality q γ) =
      parts.map (modularity G γ) := by
    rw [List.map_map]
    exact List.map_congr_left fun p hpm => hqual p hpm γ
  obtain ⟨best, hb⟩ := pyMax_map_exists hne (modularity G γ)
  rw [hmap, hb, Py.ok_bind]
  cases hf : ranges.find? fun r => decide (r.1 ≤ γ ∧ γ ≤ r.2.1) with
  | none =>
    refine ⟨⟨fun h => (by cases h), ?_⟩, Or.inr rfl⟩
    rintro ⟨before, r, after, rfl, hin, -⟩
    rw [List.find?_eq_none] at hf
    exact absurd hin (by simpa using hf r (by simp))
  | some r =>
    obtain ⟨h1, before, after, h2, h3⟩ := find?_first.mp hf
    have hrm : r.2.2 ∈ parts := hr r (by rw [h2]; simp)
    have hfind : ((parts.map fun p => (⟨.rb (unweighted G) 1, p⟩ : PartObj ℝ ℝ)).find? fun p =>
        decide (p.membership = r.2.2)) = some ⟨.rb (unweighted G) 1, r.2.2⟩ := by
      clear hobjs hqual hmap hb hf hne hp hr
      induction parts with
      | nil => simp at hrm
      | cons p ps ih =>
        rw [List.map_cons, List.find?_cons]
        by_cases h : p = r.2.2
        · simp [h]
        · simp only [h, decide_false]
          exact ih (by simpa [Ne.symm h] using hrm)
    simp only [hfind]
    rw [hqual _ hrm]
    obtain ⟨g1, g2⟩ := assertAlmostEqual_fin (.fin best) (modularity G γ r.2.2)
    refine ⟨?_, g2⟩
    rw [g1, closeFl_fin, best_close hrm hb]
    constructor
    · intro h
      exact ⟨before, r, after, h2, by simpa using h1, fun x hx => by simpa using h3 x hx, h⟩
    · rintro ⟨before', r', after', h2', hin, hfirst, h⟩
      have : ranges.find? (fun r => decide (r.1 ≤ γ ∧ γ ≤ r.2.1)) = some r' :=
        find?_first.mpr ⟨by simpa using hin, before', after', h2', fun x hx => by simpa using hfirst x hx⟩
      rw [hf] at this
      obtain rfl := Option.some.inj this
      exact h

/-- **C101 (ranges).** Whenever `CHAMP_2D` returns – any graph, weighted or not, any partitions and window –, the check accepts
its ranges at every list of gammas in the closed window. -/
theorem c101_ranges_accepted (hq : LeidenalgQuality q) {cenv : ChampEnv} (he : SoundEnv cenv) {G : Graph ℝ} (hG : G.WF)
    {parts : List (List Nat)} (hp : ∀ c ∈ parts, c.length = G.vcount) (hne : parts ≠ []) {γ₀ γf : ℝ} {st : Bool}
    {ranges : List (ℝ × ℝ × List Nat)} (h : champ2D cenv G parts γ₀ γf st = (some (.ok ranges) : Option _))
    {gammas : List ℝ} (hg : ∀ γ ∈ gammas, γ₀ ≤ γ ∧ γ ≤ γf) : checkRanges2D q G parts ranges gammas = .ok () := by
  have hc := c17_ranges_correct he hG hp h
  refine ((c101_ranges_meaning hq hG hp hne (fun r hr => (hc r hr).2.2.2.1) gammas).1).mpr ?_
  intro γ hγ
  obtain ⟨h0, hf⟩ := hg γ hγ
  obtain ⟨r, hr, h1, h2, -⟩ := c18_ranges_cover he hG hp hne h h0 hf
  cases hfind : ranges.find? fun r => decide (r.1 ≤ γ ∧ γ ≤ r.2.1) with
  | none =>
    rw [List.find?_eq_none] at hfind
    exact absurd (⟨h1, h2⟩ : r.1 ≤ γ ∧ γ ≤ r.2.1) (by simpa using hfind r hr)
  | some r' =>
    obtain ⟨g1, before, after, g2, g3⟩ := find?_first.mp hfind
    have hr' : r' ∈ ranges := by rw [g2]; simp
    refine ⟨before, r', after, g2, by simpa using g1, fun x hx => by simpa using g3 x hx, fun c hcm => ?_⟩
    have := (((hc r' hr').2.2.2.2 γ).mp (by simpa using g1)).2 c hcm
    linarith

/-! ### Domains -/

/-- **C101 (point in polygon).** The `>= 0` test against the centroid's side decides membership in the closed polygon for
clockwise vertices – the order in which `CHAMP_3D` returns them (C23) – and in the open polygon for counterclockwise ones. -/
theorem c101_point_test {l : List (ℝ × ℝ)} (h3 : 3 ≤ l.length) (hnd : l.Nodup) (p : ℝ × ℝ) :
    (Clockwise l → (insideChampDomain l p = true ↔ p ∈ convexHull ℝ {r | r ∈ l})) ∧
    (CounterClockwise l → (insideChampDomain l p = true ↔ p ∈ interior (convexHull ℝ {r | r ∈ l}))) := by
  constructor
  · intro h
    refine inside_clockwise ⟨Or.inl rfl, h3, hnd, ?_⟩ p
    intro i hi r hr h1 h2
    have hj : (i + 1) % l.length < l.length := Nat.mod_lt _ (by omega)
    rw [vtx_eq hi] at h1 ⊢
    rw [vtx_eq hj] at h2 ⊢
    rw [one_mul]
    exact h i _ hi hj rfl r hr h1 h2
  · intro h
    refine inside_counterclockwise ⟨Or.inr rfl, h3, hnd, ?_⟩ p
    intro i hi r hr h1 h2
    have hj : (i + 1) % l.length < l.length := Nat.mod_lt _ (by omega)
    rw [vtx_eq hi] at h1 ⊢
    rw [vtx_eq hj] at h2 ⊢
    have := h i _ hi hj rfl r hr h1 h2
    linarith

/-- **C101 (domains, meaning).** For every list of clockwise polygons with partitions out of the given ones: the check passes
iff every point lies in some polygon and the partition of the first such polygon has the best multilayer modularity up to
`0.5e-10`; otherwise it raises `AssertionError`. -/
theorem c101_domains_meaning (hq : LeidenalgQuality q) (hheap : ∀ o, (heap o).WF ∧ SaneTest env.test (heap o))
    {obj : Nat} {Gx : Graph ℝ} {layers : List Nat} (hM : Multilayer (heap obj) Gx layers)
    (hx : ∀ e ∈ (heap obj).edges, layers[e.1]? = layers[e.2]?) (hn : layers ≠ [])
    (hwi : UnitWeights (defaulted env.test (heap obj))) (hwx : UnitWeights (defaulted env.test Gx)) {parts : List (List Nat)}
    (hp : ∀ c ∈ parts, c.length = (heap obj).vcount) (hne : parts ≠ []) {domains : List (List (ℝ × ℝ) × List Nat)}
    (hd : ∀ d ∈ domains, d.2 ∈ parts ∧ 3 ≤ d.1.length ∧ d.1.Nodup ∧ Clockwise d.1) (points : List (ℝ × ℝ)) {w : World}
    (hw : Reachable env heap w) :
    let r := (checkDomains3D q env.test obj (heap obj) Gx layers parts domains points w).1
    (r = .ok () ↔ ∀ x ∈ points, ∃ before d after, domains = before ++ d :: after ∧ x ∈ convexHull ℝ {v | v ∈ d.1} ∧
      (∀ e ∈ before, x ∉ convexHull ℝ {v | v ∈ e.1}) ∧
      ∀ c ∈ parts, multilayerModularity (heap obj) Gx layers x.1 x.2 c ≤
        multilayerModularity (heap obj) Gx layers x.1 x.2 d.2 + 5 / 10 ^ 11) ∧
    (r = .ok () ∨ r = .error .assertionError) := by
  intro r
  obtain ⟨gs, objs, w', hrun, hobjs⟩ := buildObjs_run hq hM hx hn hwi hwx parts hp (heap obj, Gx) [] ⟨rfl, rfl⟩
    (reachable_inv hheap hw)
  rw [List.nil_append] at hrun
  have hr : r = (pyFor points fun x => do
      let best ← pyMax (objs.map fun p => multilayerQuality q x.1 x.2 p.2)
      match domains.find? fun d => insideChampDomain d.1 x with
      | none => .error .assertionError
      | some d =>
        match objs.lookup d.2 with
        | none => .error .keyError
        | some p => assertAlmostEqual (.fin best) (.fin (multilayerQuality q x.1 x.2 p))) := by
    simp only [r]
    unfold checkDomains3D
    rw [Prog.bind_eq, hrun]
    rfl
  rw [hr]
  refine pyFor_spec _ fun x _ => ?_
  have hmap : (objs.map fun p => multilayerQuality q x.1 x.2 p.2) =
      parts.map (multilayerModularity (heap obj) Gx layers x.1 x.2) := by
    clear hrun hp hne hd hr
    induction hobjs with
    | nil => rfl
    | cons h _ ih => rw [List.map_cons, List.map_cons, h.2, ih]
  have hlook : ∀ c ∈ parts, ∃ o, objs.lookup c = some o ∧
      multilayerQuality q x.1 x.2 o = multilayerModularity (heap obj) Gx layers x.1 x.2 c := by
    clear hrun hmap hp hne hd hr
    induction hobjs with
    | nil => simp
    | @cons p o ps os h _ ih =>
      intro c hc
      obtain ⟨k, o⟩ := o
      obtain ⟨h1, h2⟩ := h
      simp only at h1
      subst h1
      rw [List.lookup_cons]
      by_cases h : c = k
      · subst h; simp [h2]
      · rw [show (c == k) = false by simpa using h]
        exact ih c (by simpa [h] using hc)
  obtain ⟨best, hb⟩ := pyMax_map_exists hne (multilayerModularity (heap obj) Gx layers x.1 x.2)
  rw [hmap, hb, Py.ok_bind]
  have hin : ∀ d ∈ domains, insideChampDomain d.1 x = true ↔ x ∈ convexHull ℝ {v | v ∈ d.1} := fun d hdm =>
    (c101_point_test (hd d hdm).2.1 (hd d hdm).2.2.1 x).1 (hd d hdm).2.2.2
  cases hf : domains.find? fun d => insideChampDomain d.1 x with
  | none =>
    refine ⟨⟨fun h => (by cases h), ?_⟩, Or.inr rfl⟩
    rintro ⟨before, d, after, rfl, hxin, -⟩
    rw [List.find?_eq_none] at hf
    exact absurd ((hin d (by simp)).mpr hxin) (hf d (by simp))
  | some d =>
    obtain ⟨h1, before, after, h2, h3⟩ := find?_first.mp hf
    have hdm : d ∈ domains := by rw [h2]; simp
    obtain ⟨o, ho, hoq⟩ := hlook d.2 (hd d hdm).1
    simp only [ho]
    rw [hoq]
    obtain ⟨g1, g2⟩ := assertAlmostEqual_fin (.fin best) (multilayerModularity (heap obj) Gx layers x.1 x.2 d.2)
    refine ⟨?_, g2⟩
    rw [g1, closeFl_fin, best_close (hd d hdm).1 hb]
    constructor
    · intro h
      refine ⟨before, d, after, h2, (hin d hdm).mp h1, fun e he hxe => ?_, h⟩
      have := (hin e (by rw [h2]; simp [he])).mpr hxe
      rw [h3 e he] at this; cases this
    · rintro ⟨before', d', after', h2', hxin, hfirst, h⟩
      have hd' : d' ∈ domains := by rw [h2']; simp
      have : domains.find? (fun d => insideChampDomain d.1 x) = some d' := by
        refine find?_first.mpr ⟨(hin d' hd').mpr hxin, before', after', h2', fun e he => ?_⟩
        rw [← Bool.not_eq_true, hin e (by rw [h2']; simp [he])]
        exact hfirst e he
      rw [hf] at this
      obtain rfl := Option.some.inj this
      exact h

/-- **C101 (domains).** Whenever `CHAMP_3D` returns on an unweighted multilayer network, the check accepts its domains at every
list of points of the closed window, in every reachable process state. -/
theorem c101_domains_accepted (hq : LeidenalgQuality q) (hheap : ∀ o, (heap o).WF ∧ SaneTest env.test (heap o))
    {cenv : ChampEnv} (he : SoundEnv cenv) {obj : Nat} {Gx : Graph ℝ} {layers : List Nat}
    (hM : Multilayer (heap obj) Gx layers) (hx : ∀ e ∈ (heap obj).edges, layers[e.1]? = layers[e.2]?) (hn : layers ≠ [])
    (hwi : UnitWeights (defaulted env.test (heap obj))) (hwx : UnitWeights (defaulted env.test Gx)) {parts : List (List Nat)}
    (hp : ∀ c ∈ parts, c.length = (heap obj).vcount) (hne : parts ≠ []) {γ₀ γf ω₀ ωf : ℝ}
    {domains : List (List (ℝ × ℝ) × List Nat)}
    (h : champ3D cenv (heap obj) Gx layers parts γ₀ γf ω₀ ωf = (some (.ok domains) : Option _)) {points : List (ℝ × ℝ)}
    (hpt : ∀ x ∈ points, (γ₀ ≤ x.1 ∧ x.1 ≤ γf) ∧ ω₀ ≤ x.2 ∧ x.2 ≤ ωf) {w : World} (hw : Reachable env heap w) :
    (checkDomains3D q env.test obj (heap obj) Gx layers parts domains points w).1 = .ok () := by
  have hc := c21_domains_correct he hM hp h
  have hb := c23_boundary_order he hM hp h
  have hdom : ∀ d ∈ domains, d.2 ∈ parts ∧ 3 ≤ d.1.length ∧ d.1.Nodup ∧ Clockwise d.1 := fun d hd =>
    ⟨(hc d hd).1, (hb d hd).1, (hb d hd).2.1, (hb d hd).2.2.1⟩
  refine ((c101_domains_meaning hq hheap hM hx hn hwi hwx hp hne hdom points hw).1).mpr ?_
  intro x hxm
  obtain ⟨d, hd, hin, -⟩ := c22_domains_cover he hM hp hne h (hpt x hxm).1 (hpt x hxm).2
  have htest : ∀ d ∈ domains, insideChampDomain d.1 x = true ↔ x ∈ convexHull ℝ {v | v ∈ d.1} := fun d hdm =>
    (c101_point_test (hdom d hdm).2.1 (hdom d hdm).2.2.1 x).1 (hdom d hdm).2.2.2
  cases hfind : domains.find? fun d => insideChampDomain d.1 x with
  | none =>
    rw [List.find?_eq_none] at hfind
    exact absurd ((htest d hd).mpr hin) (hfind d hd)
  | some d' =>
    obtain ⟨g1, before, after, g2, g3⟩ := find?_first.mp hfind
    have hd' : d' ∈ domains := by rw [g2]; simp
    have hin' := (htest d' hd').mp g1
    refine ⟨before, d', after, g2, hin', fun e hem hxe => ?_, fun c hcm => ?_⟩
    · have := (htest e (by rw [g2]; simp [hem])).mpr hxe
      rw [g3 e hem] at this; cases this
    · have := (((hc d' hd').2.2 x).mp hin').2 c hcm
      linarith

/-! ### Weights -/

/-- leidenalg's quality with a count of possible edges. -/
noncomputable def documentedQuality : QualityFn := fun p c => quality (fun _ n => (n : ℝ)) c p

theorem documentedQuality_leidenalg : LeidenalgQuality documentedQuality := ⟨_, fun _ _ => rfl⟩

/-- One layer with a single edge of weight 5. -/
def gHeavy : Graph ℝ := ⟨2, false, [(0, 1)], some [5]⟩
/-- No interlayer edges. -/
def gNoInter : Graph ℝ := ⟨2, false, [], some []⟩

/-- **C101 (limit).** The multilayer checks need unweighted networks: `multilayer_leiden_part` uses the weights and CHAMP does
not, so on a one-layer network with one edge of weight 5 (and an igraph that says it has weights) the multilayer check rejects
the coefficients, although the single-layer check, whose `leiden_part` ignores weights too, accepts them. -/
theorem c101_weighted_rejected (hq : LeidenalgQuality q) {test : Graph ℝ → Bool} (ht : ∀ G, test G = true)
    {order : List Nat} {rnd : Nat → Nat → Nat} {cpu : Nat} (hcpu : 1 ≤ cpu) (hr : GoodRounding rnd cpu) {sched : List Nat}
    (hs : ∀ i < cpu, i ∈ sched) (obj : Nat) :
    (∃ coeffs, partitionCoefficients3D rnd cpu sched gHeavy gNoInter [0, 0] [[0, 0]] = some (.ok coeffs) ∧
      (checkCoefficients3D q test order obj gHeavy gNoInter [0, 0] [[0, 0]] coeffs World.fresh).1 = .error .assertionError) ∧
    ∃ coeffs, partitionCoefficients2D rnd cpu sched gHeavy [[0, 0]] true = some (.ok coeffs) ∧
      checkCoefficients2D q gHeavy [[0, 0]] coeffs = .ok () := by
  have hwf : gHeavy.WF := ⟨by decide, by intro ws h; obtain rfl := Option.some.inj h; rfl⟩
  refine ⟨?_, c101_coefficients_2D_accepted hq hwf (by decide) (by decide) hr hs true⟩
  obtain ⟨r, h1, h2⟩ := c11_parallel_3D hcpu hr hs gHeavy gNoInter [0, 0] [[0, 0]]
  obtain ⟨A, P, C, h3, rfl, rfl, rfl, -⟩ := c08_coefficients_multilayer (F := ℝ) (Gi := gHeavy) (Gx := gNoInter) hwf
    ⟨by decide, by intro ws h; obtain rfl := Option.some.inj h; rfl⟩ rfl (layer := [0, 0]) rfl (by decide)
    (Or.inr (by decide)) (by decide) (parts := [[0, 0]]) (by decide)
  obtain rfl := (h2 _).mpr h3
  refine ⟨_, h1, ?_⟩
  obtain ⟨possible, hq⟩ := hq
  have hA : (withinAdj gHeavy [0, 0] : ℝ) = 2 := by
    simp [withinAdj, adj, gHeavy, Finset.sum_range_succ]
    norm_num
  have hsplit : splitLayers 2 [(0, 1)] (some [(5 : ℝ)]) false [0, 0] = .ok [gHeavy] := by
    have := splitLayers_ok (F := ℝ) (G := gHeavy) hwf (ws := [5]) rfl (layers := [0, 0]) rfl (T := 1) rfl (by decide)
    exact this
  have hcache : ∃ c, splitIntralayer World.fresh.cache obj gHeavy [0, 0] = (c, .ok [gHeavy]) := by
    obtain ⟨-, i2, -⟩ := splitIntralayer_inv (heap := fun _ => gHeavy) (obj := obj) hwf (ws := [5]) rfl [0, 0]
      (c := World.fresh.cache) ⟨Nat.zero_le _, List.nodup_nil, fun e he => absurd he List.not_mem_nil⟩
    exact ⟨_, Prod.ext rfl (i2.trans hsplit)⟩
  obtain ⟨c, hc⟩ := hcache
  have hdH : defaulted test gHeavy = gHeavy := if_pos (ht _)
  have hdX : defaulted test gNoInter = gNoInter := if_pos (ht _)
  have e1 : multilayerLeidenPart test obj gHeavy gNoInter [0, 0] World.fresh =
      (.ok (([.rb gHeavy 1], .cpm gNoInter 0), gHeavy, gNoInter), { World.fresh with cache := c }) := by
    unfold multilayerLeidenPart
    rw [ensureWeight_ecount, Prog.lift_ok, ensureWeight_ecount, Prog.lift_ok, Prog.bind_eq, hdH, hdX]
    simp only [Prog.split, hc]
    rfl
  have e2 : multilayerLeidenPartObj test obj gHeavy gNoInter [0, 0] [0, 0] World.fresh =
      (.ok (([⟨.rb gHeavy 1, [0, 0]⟩], ⟨.cpm gNoInter 0, [0, 0]⟩), gHeavy, gNoInter), { World.fresh with cache := c }) := by
    unfold multilayerLeidenPartObj
    rw [Prog.bind_eq, e1]
    rfl
  have hten : (([⟨.rb gHeavy 1, [0, 0]⟩] : List (PartObj ℝ ℝ)).map fun p => p.quality q 0).sum = 10 := by
    simp [PartObj.quality, VertexPartition.at, hq, quality, rbQuality, wEdges, wTotal, commWeight, gHeavy]
    norm_num
  have hbad : assertAlmostEqual (.fin 2) (.fin 10) = .error .assertionError := by
    unfold assertAlmostEqual
    norm_num
  unfold checkCoefficients3D
  simp only [List.map_cons, List.map_nil, List.zip_cons_cons, List.zip_nil_right, progFold]
  rw [Prog.bind_eq]
  unfold checkCoefficient3D
  rw [Prog.bind_eq, e2]
  dsimp only
  rw [hten, hA, hbad, Prog.lift_error]

/-! ### Concrete instances -/

/-- Single layer: the coefficients of three partitions are accepted with 2 workers … -/
example : ∃ coeffs, partitionCoefficients2D (fun n k => n / k) 2 [1, 0] gReal
    [[0, 0, 0, 0, 0], [0, 0, 1, 1, 1], [0, 1, 2, 3, 4]] false = some (.ok coeffs) ∧
    checkCoefficients2D documentedQuality gReal [[0, 0, 0, 0, 0], [0, 0, 1, 1, 1], [0, 1, 2, 3, 4]] coeffs = .ok () :=
  c101_coefficients_2D_accepted documentedQuality_leidenalg gReal_wf (by decide) (by decide)
    ⟨fun _ _ h => Nat.div_le_div_right h, fun k => Nat.mul_div_cancel k (by omega)⟩ (by decide) false

/-- … and a wrong coefficient (9 instead of 10) is rejected. -/
example : checkCoefficients2D documentedQuality gReal [[0, 0, 0, 0, 0]] ([9], [.fin 10]) = .error .assertionError := by
  obtain ⟨h1, h2⟩ := c101_coefficients_2D_meaning documentedQuality_leidenalg gReal_wf (parts := [[0, 0, 0, 0, 0]]) (by decide)
    [9] [.fin 10]
  refine h2.resolve_left fun h => ?_
  have := (h1.mp h ([0, 0, 0, 0, 0], 9, .fin 10) (by simp)).1
  have hA : (withinAdj gReal [0, 0, 0, 0, 0] : ℝ) = 10 := by
    simp [withinAdj, adj, gReal, Finset.sum_range_succ]
    norm_num
  rw [hA] at this
  unfold Close at this
  norm_num at this

/-- CHAMP's ranges are accepted at 0, 1 and 2 … -/
example : ∃ ranges, champ2D exactEnv gReal [[0, 0, 0, 0, 0], [0, 0, 1, 1, 1], [0, 1, 2, 3, 4]] 0 2 false =
      (some (.ok ranges) : Option _) ∧
    checkRanges2D documentedQuality gReal [[0, 0, 0, 0, 0], [0, 0, 1, 1, 1], [0, 1, 2, 3, 4]] ranges [0, 1, 2] = .ok () := by
  obtain ⟨ranges, h⟩ := c17_returns exactEnv_exact gReal_wf rfl (by decide)
    (by decide : ∀ c ∈ [[0, 0, 0, 0, 0], [0, 0, 1, 1, 1], [0, 1, 2, 3, 4]], c.length = gReal.vcount) (by decide)
    (show (0 : ℝ) < 2 by norm_num) false
  refine ⟨ranges, h, c101_ranges_accepted documentedQuality_leidenalg exactEnv_exact.toSoundEnv gReal_wf (by decide) (by decide) h ?_⟩
  intro γ hγ
  simp only [List.mem_cons, List.not_mem_nil, or_false] at hγ
  rcases hγ with rfl | rfl | rfl <;> norm_num

/-- … and a list of ranges with a gap at 1 is rejected there. -/
example : checkRanges2D documentedQuality gReal [[0, 0, 0, 0, 0]] [(0, 1 / 2, [0, 0, 0, 0, 0])] [1] = .error .assertionError := by
  obtain ⟨h1, h2⟩ := c101_ranges_meaning documentedQuality_leidenalg gReal_wf (parts := [[0, 0, 0, 0, 0]]) (by decide) (by decide)
    (ranges := [(0, 1 / 2, [0, 0, 0, 0, 0])]) (by simp) [1]
  refine h2.resolve_left fun h => ?_
  obtain ⟨before, r, after, e, ⟨-, hr⟩, -⟩ := h1.mp h 1 (by simp)
  have : r ∈ [((0 : ℝ), (1 / 2 : ℝ), [0, 0, 0, 0, 0])] := by rw [e]; simp
  simp only [List.mem_singleton] at this
  subst this
  norm_num at hr

/-- A two-layer temporal network: the coefficients and CHAMP's domains are accepted in a fresh process. -/
example : (∃ coeffs s, partitionCoefficients3D (fun n k => n / k) 2 [1, 0] gIntraR gInterR [0, 0, 0, 1, 1, 1]
      [[0, 0, 0, 0, 0, 0], [0, 1, 2, 3, 4, 5]] = some (.ok coeffs) ∧
    (checkCoefficients3D documentedQuality copiesEnv.test [1, 0] 7 gIntraR gInterR [0, 0, 0, 1, 1, 1]
      [[0, 0, 0, 0, 0, 0], [0, 1, 2, 3, 4, 5]] coeffs World.fresh).1 = .ok s) ∧
    ∃ doms, champ3D exactEnv gIntraR gInterR [0, 0, 0, 1, 1, 1] [[0, 0, 0, 0, 0, 0], [0, 1, 2, 3, 4, 5]] 0 2 0 2 =
      (some (.ok doms) : Option _) ∧
    (checkDomains3D documentedQuality copiesEnv.test 7 gIntraR gInterR [0, 0, 0, 1, 1, 1]
      [[0, 0, 0, 0, 0, 0], [0, 1, 2, 3, 4, 5]] doms [(1, 1), (0, 2)] World.fresh).1 = .ok () := by
  have hheap : ∀ o : Nat, ((fun _ => gIntraR) o : Graph ℝ).WF ∧ SaneTest copiesEnv.test ((fun _ => gIntraR) o : Graph ℝ) :=
    fun _ => ⟨gIntraR_multilayer.intra, fun h => by cases h⟩
  refine ⟨c101_coefficients_3D_accepted (heap := fun _ => gIntraR) (env := copiesEnv) (obj := 7) documentedQuality_leidenalg hheap
    (by decide) gIntraR_multilayer (by decide) (by decide) (by decide) rfl rfl (by decide) (by decide)
    ⟨fun _ _ h => Nat.div_le_div_right h, fun k => Nat.mul_div_cancel k (by omega)⟩ (by decide) .fresh, ?_⟩
  obtain ⟨doms, hd⟩ := c21_returns (parts := [[0, 0, 0, 0, 0, 0], [0, 1, 2, 3, 4, 5]]) (γ₀ := 0) (γf := 2) (ω₀ := 0) (ωf := 2)
    exactEnv_exact gIntraR_multilayer rfl (by decide) (by decide) (by decide) (by decide) (by norm_num) (by norm_num)
  refine ⟨doms, hd, c101_domains_accepted (heap := fun _ => gIntraR) (env := copiesEnv) (obj := 7) documentedQuality_leidenalg
    hheap exactEnv_exact.toSoundEnv gIntraR_multilayer (by decide) (by decide) rfl rfl (by decide) (by decide) hd ?_ .fresh⟩
  intro x hx
  simp only [List.mem_cons, List.not_mem_nil, or_false] at hx
  rcases hx with rfl | rfl <;> norm_num

/-- The limits: an edgeless graph, and weights. -/
example : ∃ coeffs, partitionCoefficients2D (fun n k => n / k) 1 [0] (⟨3, false, [], none⟩ : Graph ℝ) [[0, 0, 1]] true =
      some (.ok coeffs) ∧
    checkCoefficients2D documentedQuality (⟨3, false, [], none⟩ : Graph ℝ) [[0, 0, 1]] coeffs = .error .assertionError :=
  c101_edgeless_rejected documentedQuality_leidenalg ⟨by decide, by intro ws h; cases h⟩ rfl (by decide) (by decide)
    ⟨fun _ _ h => Nat.div_le_div_right h, fun k => Nat.mul_div_cancel k (by omega)⟩ (by decide) true

example : ∃ coeffs, partitionCoefficients3D (fun n k => n / k) 1 [0] gHeavy gNoInter [0, 0] [[0, 0]] = some (.ok coeffs) ∧
    (checkCoefficients3D documentedQuality (fun _ => true) [0] 0 gHeavy gNoInter [0, 0] [[0, 0]] coeffs World.fresh).1 =
      .error .assertionError :=
  (c101_weighted_rejected documentedQuality_leidenalg (fun _ => rfl) (le_refl _)
    ⟨fun _ _ h => Nat.div_le_div_right h, fun k => Nat.mul_div_cancel k (by omega)⟩ (by decide) 0).1

/-- The point test on the clockwise unit square: the boundary point `(0, 1/2)` is in. -/
example : insideChampDomain [(0, 0), (0, 1), (1, 1), (1, 0)] (0, 1 / 2) = true := by
  rw [inside_iff]
  intro i hi
  have : i = 0 ∨ i = 1 ∨ i = 2 ∨ i = 3 := by simp at hi; omega
  rcases this with rfl | rfl | rfl | rfl <;> norm_num [centroid, orient, vtx]

end Verif.Props
