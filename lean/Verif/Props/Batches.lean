import Verif.Spec.Batches
import Verif.Props.Renumber
import Verif.Props.Window

/-!
# Property C120: partitions processed in batches
-/

namespace Verif.Props
open Verif Verif.Spec

section
variable {α β : Type} [DecidableEq α] [DecidableEq β] {env env' : ChampEnv} {G : Graph ℝ} {parts kept : List (List α)}
  {parts' : List (List β)} {γ₀ γf : ℝ} {st st' : Bool} {ranges : List (ℝ × ℝ × List α)} {ranges' : List (ℝ × ℝ × List β)}

/-- everywhere in the window, every partition of the first list is matched or beaten by one of the second -/
def Below (G : Graph ℝ) (γ₀ γf : ℝ) (parts : List (List α)) (parts' : List (List β)) : Prop :=
  ∀ γ, γ₀ ≤ γ → γ ≤ γf → ∀ p ∈ parts, ∃ q ∈ parts', modularity G γ p ≤ modularity G γ q

theorem envelope_one (he : SoundEnv env) (he' : SoundEnv env') (hG : G.WF) (hp : ∀ p ∈ parts, p.length = G.vcount)
    (hp' : ∀ p ∈ parts', p.length = G.vcount) (h12 : Below G γ₀ γf parts parts') (h21 : Below G γ₀ γf parts' parts)
    (hr : champ2D env G parts γ₀ γf st = (some (.ok ranges) : Option _))
    (hr' : champ2D env' G parts' γ₀ γf st' = (some (.ok ranges') : Option _)) :
    ∀ r ∈ ranges, ∃ r' ∈ ranges', r'.1 = r.1 ∧ r'.2.1 = r.2.1 ∧ SameModularity G r'.2.2 r.2.2 := by
  intro r hrm
  obtain ⟨h1, h2, h3, h4, hiff⟩ := c17_ranges_correct he hG hp hr r hrm
  obtain ⟨q0, hq0, -⟩ := h12 γ₀ le_rfl (by linarith) _ h4
  obtain ⟨r', hr'm, -, -, hopt'⟩ := c18_ranges_cover he' hG hp' (List.ne_nil_of_mem hq0) hr' (γ := (r.1 + r.2.1) / 2)
    (by linarith) (by linarith)
  obtain ⟨k1, k2, k3, k4, hiff'⟩ := c17_ranges_correct he' hG hp' hr' r' hr'm
  have hle : ∀ γ, r.1 ≤ γ → γ ≤ r.2.1 → modularity G γ r'.2.2 ≤ modularity G γ r.2.2 := by
    intro γ g1 g2
    obtain ⟨q, hq, hle⟩ := h21 γ (by linarith) (by linarith) _ k4
    exact hle.trans (((hiff γ).mp ⟨g1, g2⟩).2 q hq)
  have hge : modularity G ((r.1 + r.2.1) / 2) r.2.2 ≤ modularity G ((r.1 + r.2.1) / 2) r'.2.2 := by
    obtain ⟨q, hq, hle⟩ := h12 ((r.1 + r.2.1) / 2) (by linarith) (by linarith) _ h4
    exact hle.trans (hopt' q hq)
  have hs : SameModularity G r'.2.2 r.2.2 := by
    have e1 := hle r.1 le_rfl h2.le
    have e2 := hle r.2.1 h2.le le_rfl
    rw [modularity_affine, modularity_affine] at e1 e2 hge
    obtain ⟨a, b⟩ := same_of_touch e1 e2 (γ := (r.1 + r.2.1) / 2) (by linarith) (by linarith) hge
    intro γ
    rw [modularity_affine, modularity_affine, a, b]
  have hset : ∀ γ, (r.1 ≤ γ ∧ γ ≤ r.2.1) ↔ (r'.1 ≤ γ ∧ γ ≤ r'.2.1) := by
    intro γ
    rw [hiff, hiff']
    refine and_congr_right fun ⟨g1, g2⟩ => ⟨fun hall c' hc' => ?_, fun hall c hc => ?_⟩
    · obtain ⟨q, hq, hle⟩ := h21 γ g1 g2 c' hc'
      rw [hs γ]; exact hle.trans (hall q hq)
    · obtain ⟨q, hq, hle⟩ := h12 γ g1 g2 c hc
      rw [← hs γ]; exact hle.trans (hall q hq)
  refine ⟨r', hr'm, ?_, ?_, hs⟩
  · exact le_antisymm ((hset r.1).mp ⟨le_rfl, h2.le⟩).1 ((hset r'.1).mpr ⟨le_rfl, k2.le⟩).1
  · exact le_antisymm ((hset r'.2.1).mpr ⟨k2.le, le_rfl⟩).2 ((hset r.2.1).mp ⟨h2.le, le_rfl⟩).2

theorem ranges_sorted (he : SoundEnv env) (hG : G.WF) (hp : ∀ p ∈ parts, p.length = G.vcount)
    (hr : champ2D env G parts γ₀ γf st = (some (.ok ranges) : Option _)) : ranges.Pairwise fun r s => r.1 < s.1 := by
  by_cases hne : parts = []
  · subst hne
    have : champ2D env G ([] : List (List α)) γ₀ γf st = (some (.ok []) : Option _) := rfl
    rw [this] at hr
    cases hr
    exact List.Pairwise.nil
  · exact (c19_sorted_tiling he hG hp hne hr).2.2.2

theorem envelope (he : SoundEnv env) (he' : SoundEnv env') (hG : G.WF) (hp : ∀ p ∈ parts, p.length = G.vcount)
    (hp' : ∀ p ∈ parts', p.length = G.vcount) (h12 : Below G γ₀ γf parts parts') (h21 : Below G γ₀ γf parts' parts)
    (hr : champ2D env G parts γ₀ γf st = (some (.ok ranges) : Option _))
    (hr' : champ2D env' G parts' γ₀ γf st' = (some (.ok ranges') : Option _)) :
    List.Forall₂ (fun r r' => r'.1 = r.1 ∧ r'.2.1 = r.2.1 ∧ SameModularity G r'.2.2 r.2.2) ranges ranges' := by
  refine sorted_match (fun r => r.1) (fun r => r.1) _ (ranges_sorted he hG hp hr) (ranges_sorted he' hG hp' hr')
    (fun r hrm => ?_) (fun r' hrm => ?_)
  · obtain ⟨r', hm', e1, e2, e3⟩ := envelope_one he he' hG hp hp' h12 h21 hr hr' r hrm
    exact ⟨r', hm', e1, e1, e2, e3⟩
  · obtain ⟨r, hm', e1, -⟩ := envelope_one he' he hG hp' hp h21 h12 hr' hr r' hrm
    exact ⟨r, hm', e1.symm⟩

theorem below_of_subset (h : ∀ p ∈ parts, p ∈ kept) : Below G γ₀ γf parts kept :=
  fun _ _ _ p hp => ⟨p, h p hp, le_rfl⟩

theorem below_of_ranges (he : SoundEnv env) (hG : G.WF) (hp : ∀ p ∈ parts, p.length = G.vcount)
    (hr : champ2D env G parts γ₀ γf st = (some (.ok ranges) : Option _)) :
    Below G γ₀ γf parts (ranges.map fun r => r.2.2) := by
  intro γ h0 hf p hpp
  obtain ⟨r, hr, -, -, h⟩ := c18_ranges_cover he hG hp (List.ne_nil_of_mem hpp) hr h0 hf
  exact ⟨_, List.mem_map.mpr ⟨r, hr, rfl⟩, h p hpp⟩

theorem forall₂_left {A B : Type} {R : A → B → Prop} {l : List A} {m : List B} (h : List.Forall₂ R l m) {a : A} (ha : a ∈ l) :
    ∃ b ∈ m, R a b := by
  induction h with
  | nil => simp at ha
  | cons hab _ ih =>
    rcases List.mem_cons.mp ha with rfl | ha
    · exact ⟨_, List.mem_cons_self, hab⟩
    · obtain ⟨b, hb, hR⟩ := ih ha
      exact ⟨b, List.mem_cons_of_mem _ hb, hR⟩

theorem forall₂_right {A B : Type} {R : A → B → Prop} {l : List A} {m : List B} (h : List.Forall₂ R l m) {b : B} (hb : b ∈ m) :
    ∃ a ∈ l, R a b := by
  induction h with
  | nil => simp at hb
  | cons hab _ ih =>
    rcases List.mem_cons.mp hb with rfl | hb
    · exact ⟨_, List.mem_cons_self, hab⟩
    · obtain ⟨a, ha, hR⟩ := ih hb
      exact ⟨a, List.mem_cons_of_mem _ ha, hR⟩

/-- what the batches leave is a part of the whole, and as good everywhere in the window -/
theorem batched_facts (hG : G.WF) (hp : ∀ p ∈ parts, p.length = G.vcount) (hb : Batched2D G γ₀ γf parts kept) :
    (∀ p ∈ kept, p ∈ parts) ∧ Below G γ₀ γf parts kept := by
  obtain ⟨batches, results, hruns, hparts, hkept⟩ := hb
  have hlen : ∀ b ∈ batches, ∀ p ∈ b, p.length = G.vcount := fun b hb p hpb => hp p ((hparts p).mpr ⟨b, hb, hpb⟩)
  constructor
  · intro p hpk
    obtain ⟨rs, hrs, r, hr, rfl⟩ := (hkept p).mp hpk
    obtain ⟨b, hb, env, st, he, hrun⟩ := forall₂_right hruns hrs
    exact (hparts _).mpr ⟨b, hb, (c17_ranges_correct he hG (hlen b hb) hrun r hr).2.2.2.1⟩
  · intro γ h0 hf p hpp
    obtain ⟨b, hb, hpb⟩ := (hparts p).mp hpp
    obtain ⟨rs, hrs, env, st, he, hrun⟩ := forall₂_left hruns hb
    obtain ⟨q, hq, hle⟩ := below_of_ranges he hG (hlen b hb) hrun γ h0 hf p hpb
    obtain ⟨r, hr, rfl⟩ := List.mem_map.mp hq
    exact ⟨_, (hkept _).mpr ⟨rs, hrs, r, hr, rfl⟩, hle⟩

/-- **C120 (CHAMP_2D in batches).** Running `CHAMP_2D` on the partitions it returned for the batches gives the same list of
ranges as running it on all the partitions at once, each with a partition of the same modularity at every resolution. -/
theorem c120_champ2D (he : SoundEnv env) (he' : SoundEnv env') (hG : G.WF) (hp : ∀ p ∈ parts, p.length = G.vcount)
    (hb : Batched2D G γ₀ γf parts kept)
    (hr : champ2D env G parts γ₀ γf st = (some (.ok ranges) : Option _)) {ranges' : List (ℝ × ℝ × List α)}
    (hr' : champ2D env' G kept γ₀ γf st' = (some (.ok ranges') : Option _)) :
    List.Forall₂ (fun r r' => r'.1 = r.1 ∧ r'.2.1 = r.2.1 ∧ SameModularity G r'.2.2 r.2.2) ranges ranges' := by
  obtain ⟨h1, h2⟩ := batched_facts hG hp hb
  exact envelope he he' hG hp (fun p hpk => hp p (h1 p hpk)) h2 (below_of_subset h1) hr hr'

/-- **C120 (CHAMP_2D, new partitions).** When new partitions arrive, the old ones that were not returned need not be kept:
`CHAMP_2D` on the returned ones and the new ones gives the same ranges as on all. -/
theorem c120_incremental {env₀ : ChampEnv} {st₀ : Bool} {old new : List (List α)} {before : List (ℝ × ℝ × List α)}
    (he₀ : SoundEnv env₀) (he : SoundEnv env) (he' : SoundEnv env') (hG : G.WF) (hold : ∀ p ∈ old, p.length = G.vcount)
    (hnew : ∀ p ∈ new, p.length = G.vcount)
    (h₀ : champ2D env₀ G old γ₀ γf st₀ = (some (.ok before) : Option _))
    (hr : champ2D env G (old ++ new) γ₀ γf st = (some (.ok ranges) : Option _)) {ranges' : List (ℝ × ℝ × List α)}
    (hr' : champ2D env' G ((before.map fun r => r.2.2) ++ new) γ₀ γf st' = (some (.ok ranges') : Option _)) :
    List.Forall₂ (fun r r' => r'.1 = r.1 ∧ r'.2.1 = r.2.1 ∧ SameModularity G r'.2.2 r.2.2) ranges ranges' := by
  have hsub : ∀ p ∈ (before.map fun r => r.2.2) ++ new, p ∈ old ++ new := by
    intro p hp
    rcases List.mem_append.mp hp with hp | hp
    · obtain ⟨r, hrm, rfl⟩ := List.mem_map.mp hp
      exact List.mem_append_left _ (c17_ranges_correct he₀ hG hold h₀ r hrm).2.2.2.1
    · exact List.mem_append_right _ hp
  have hlen : ∀ p ∈ old ++ new, p.length = G.vcount := fun p hp => (List.mem_append.mp hp).elim (hold p) (hnew p)
  refine envelope he he' hG hlen (fun p hp => hlen p (hsub p hp)) (fun γ g0 gf p hp => ?_) (below_of_subset hsub) hr hr'
  rcases List.mem_append.mp hp with hp | hp
  · obtain ⟨q, hq, hle⟩ := below_of_ranges he₀ hG hold h₀ γ g0 gf p hp
    exact ⟨q, List.mem_append_left _ hq, hle⟩
  · exact ⟨p, List.mem_append_right _ hp, le_rfl⟩

end

section
variable {α : Type} [DecidableEq α] {env env' : ChampEnv} {Gi Gx : Graph ℝ} {layer : List Nat} {parts kept : List (List α)}
  {W : Window} {doms doms' : List (List (ℝ × ℝ) × List α)}

theorem batched_facts_3D (hM : Multilayer Gi Gx layer) (hp : ∀ p ∈ parts, p.length = Gi.vcount)
    (hb : Batched3D Gi Gx layer W parts kept) :
    (∀ p ∈ kept, p ∈ parts) ∧ ∀ γ ω, (W.γ₀ ≤ γ ∧ γ ≤ W.γf) → (W.ω₀ ≤ ω ∧ ω ≤ W.ωf) → ∀ p ∈ parts, ∃ q ∈ kept,
      multilayerModularity Gi Gx layer γ ω p ≤ multilayerModularity Gi Gx layer γ ω q := by
  obtain ⟨batches, results, hruns, hparts, hkept⟩ := hb
  have hlen : ∀ b ∈ batches, ∀ p ∈ b, p.length = Gi.vcount := fun b hb p hpb => hp p ((hparts p).mpr ⟨b, hb, hpb⟩)
  constructor
  · intro p hpk
    obtain ⟨ds, hds, d, hd, rfl⟩ := (hkept p).mp hpk
    obtain ⟨b, hb, env, he, hrun⟩ := forall₂_right hruns hds
    exact (hparts _).mpr ⟨b, hb, (c21_domains_correct he hM (hlen b hb) hrun d hd).1⟩
  · intro γ ω hγ hω p hpp
    obtain ⟨b, hb, hpb⟩ := (hparts p).mp hpp
    obtain ⟨ds, hds, env, he, hrun⟩ := forall₂_left hruns hb
    obtain ⟨d, hd, -, hopt⟩ := c22_domains_cover he hM (hlen b hb) (List.ne_nil_of_mem hpb) hrun hγ hω
    exact ⟨_, (hkept _).mpr ⟨ds, hds, d, hd, rfl⟩, hopt p hpb⟩

/-- **C120 (CHAMP_3D in batches).** The domains of the partitions left by the batches are the domains of all: as many, and
each domain of the one run is, as a set of points, a domain of the other, carried by a partition of the same multilayer
modularity everywhere. -/
theorem c120_champ3D (he : SoundEnv env) (he' : SoundEnv env') (hM : Multilayer Gi Gx layer)
    (hp : ∀ p ∈ parts, p.length = Gi.vcount) (hb : Batched3D Gi Gx layer W parts kept)
    (hr : champ3D env Gi Gx layer parts W.γ₀ W.γf W.ω₀ W.ωf = (some (.ok doms) : Option _))
    (hr' : champ3D env' Gi Gx layer kept W.γ₀ W.γf W.ω₀ W.ωf = (some (.ok doms') : Option _)) :
    doms'.length = doms.length ∧
    (∀ d ∈ doms, ∃ d' ∈ doms', convexHull ℝ {q | q ∈ d'.1} = convexHull ℝ {q | q ∈ d.1} ∧
      SameMultilayer Gi Gx layer d'.2 d.2) ∧
    ∀ d' ∈ doms', ∃ d ∈ doms, convexHull ℝ {q | q ∈ d'.1} = convexHull ℝ {q | q ∈ d.1} ∧
      SameMultilayer Gi Gx layer d'.2 d.2 := by
  obtain ⟨hsub, hbelow⟩ := batched_facts_3D hM hp hb
  have hp' : ∀ p ∈ kept, p.length = Gi.vcount := fun p hpk => hp p (hsub p hpk)
  have hhull : ∀ d ∈ doms, ∀ d' ∈ doms', SameMultilayer Gi Gx layer d'.2 d.2 →
      convexHull ℝ {q | q ∈ d'.1} = convexHull ℝ {q | q ∈ d.1} := by
    intro d hd d' hd' hs
    ext q
    rw [(c21_domains_correct he hM hp hr d hd).2.2, (c21_domains_correct he' hM hp' hr' d' hd').2.2]
    refine and_congr_right fun ⟨g, w⟩ => ⟨fun hall c hc => ?_, fun hall c hc => ?_⟩
    · obtain ⟨k, hk, hle⟩ := hbelow _ _ g w c hc
      rw [← hs]; exact hle.trans (hall k hk)
    · rw [hs]; exact hall c (hsub c hc)
  have h1 : ∀ d ∈ doms, ∃ d' ∈ doms', SameMultilayer Gi Gx layer d'.2 d.2 := by
    intro d hd
    obtain ⟨z, hz⟩ := (c22_domains_disjoint he hM hp hr).2.2.2 d hd
    obtain ⟨hdp, -, hchar⟩ := c21_domains_correct he hM hp hr d hd
    obtain ⟨⟨g, w⟩, -⟩ := (hchar z).mp (interior_subset hz)
    obtain ⟨k, hk, hle⟩ := hbelow _ _ g w _ hdp
    obtain ⟨d', hd', -, hopt⟩ := c22_domains_cover he' hM hp' (List.ne_nil_of_mem hk) hr' g w
    exact ⟨d', hd', same_of_touching (mem_interior_iff_mem_nhds.mp hz)
      (fun z hz => ((hchar z).mp hz).2 _ (hsub _ (c21_domains_correct he' hM hp' hr' d' hd').1)) (hle.trans (hopt k hk))⟩
  have h2 : ∀ d' ∈ doms', ∃ d ∈ doms, SameMultilayer Gi Gx layer d'.2 d.2 := by
    intro d' hd'
    obtain ⟨z, hz⟩ := (c22_domains_disjoint he' hM hp' hr').2.2.2 d' hd'
    obtain ⟨hdp, -, hchar⟩ := c21_domains_correct he' hM hp' hr' d' hd'
    obtain ⟨⟨g, w⟩, -⟩ := (hchar z).mp (interior_subset hz)
    obtain ⟨d, hd, -, hopt⟩ := c22_domains_cover he hM hp (List.ne_nil_of_mem (hsub _ hdp)) hr g w
    have hs := same_of_touching (mem_interior_iff_mem_nhds.mp hz) (fun z hz => by
      obtain ⟨⟨g, w⟩, ho⟩ := (hchar z).mp hz
      obtain ⟨k, hk, hle⟩ := hbelow _ _ g w _ (c21_domains_correct he hM hp hr d hd).1
      exact hle.trans (ho k hk)) (hopt _ (hsub _ hdp))
    exact ⟨d, hd, fun γ ω => (hs γ ω).symm⟩
  refine ⟨?_, fun d hd => ?_, fun d' hd' => ?_⟩
  · have hinj : ∀ {A B : List (List (ℝ × ℝ) × List α)},
        A.Pairwise (fun d e => ∃ γ ω, multilayerModularity Gi Gx layer γ ω d.2 ≠ multilayerModularity Gi Gx layer γ ω e.2) →
        (∀ a ∈ A, ∃ b ∈ B, SameMultilayer Gi Gx layer b.2 a.2) → A.length ≤ B.length := by
      intro A B hA hone
      choose! f hf using hone
      have hnd : (A.map f).Nodup := by
        rw [List.Nodup, List.pairwise_map]
        refine hA.imp_of_mem fun {a b} ha hb hne heq => ?_
        obtain ⟨γ, ω, hne⟩ := hne
        exact hne (by rw [← (hf a ha).2, ← (hf b hb).2, heq])
      have := (hnd.subperm (l₂ := B) (fun x hx => by
        obtain ⟨a, ha, rfl⟩ := List.mem_map.mp hx
        exact (hf a ha).1)).length_le
      rwa [List.length_map] at this
    refine le_antisymm (hinj (c22_domains_disjoint he' hM hp' hr').2.1 fun d' hd' => ?_)
      (hinj (c22_domains_disjoint he hM hp hr).2.1 h1)
    obtain ⟨d, hd, hs⟩ := h2 d' hd'
    exact ⟨d, hd, fun γ ω => (hs γ ω).symm⟩
  · obtain ⟨d', hd', hs⟩ := h1 d hd
    exact ⟨d', hd', hhull d hd d' hd' hs, hs⟩
  · obtain ⟨d, hd, hs⟩ := h2 d' hd'
    exact ⟨d, hd, hhull d hd d' hd' hs, hs⟩

end

section
variable {α : Type} [LinearOrder α] {env env' : PruneEnv} {G : Graph ℝ} {parts kept : List (List α)} {γ₀ γf : ℝ}
  {restrict : Option Nat} {st st' : Bool} {out out' : List (List Nat)} {G' G'' : Graph ℝ}

/-- a subsequence of a list without repetitions is determined by its elements -/
theorem sublists_eq {A : Type} {l a b : List A} (hl : l.Nodup) (ha : a.Sublist l) (hb : b.Sublist l)
    (h : ∀ x, x ∈ a ↔ x ∈ b) : a = b := by
  classical
  have key : ∀ {a l : List A}, l.Nodup → a.Sublist l → a = l.filter (· ∈ a) := by
    intro a l hl hs
    induction hs with
    | slnil => rfl
    | @cons a l x hs ih =>
      rw [List.nodup_cons] at hl
      rw [List.filter_cons, if_neg (by simpa using fun hx => hl.1 (hs.subset hx))]
      exact ih hl.2
    | @cons_cons a l x hs ih =>
      rw [List.nodup_cons] at hl
      rw [List.filter_cons, if_pos (by simp)]
      congr 1
      refine (ih hl.2).trans (List.filter_congr fun y hy => ?_)
      have : y ≠ x := fun e => hl.1 (e ▸ hy)
      simp [this]
  rw [key hl ha, key hl hb]
  exact List.filter_congr fun x _ => by simp [h]

/-- **C120 (safe batching).** `CHAMP_2D` in batches, then `prune_to_stable_partitions` on what is left: the same partitions
as pruning everything at once, if different partitions have different coefficients – for all graphs, weighted and directed
ones included. -/
theorem c120_champ_then_prune (he : SoundPruneEnv env) (he' : SoundPruneEnv env') (htest : env.test = env'.test)
    (hG : G.WF) (hp : ∀ p ∈ parts, p.length = G.vcount)
    (hdist : ∀ p ∈ parts, ∀ q ∈ parts, SameModularity G p q → SamePartition p q) (hb : Batched2D G γ₀ γf parts kept)
    (h : pruneToStable env G (.memberships parts) γ₀ γf none st = (some (.ok (out, G')) : Option _))
    (h' : pruneToStable env' G (.memberships kept) γ₀ γf none st' = (some (.ok (out', G'')) : Option _)) :
    out' = out := by
  obtain ⟨hsub, hbelow⟩ := batched_facts hG hp hb
  have hp' : ∀ p ∈ kept, p.length = G.vcount := fun p hpk => hp p (hsub p hpk)
  obtain ⟨ps, ⟨-, hps⟩, ranges, hch, hest, hsl, hout⟩ := pruneToStable_facts he h
  obtain ⟨ps', ⟨-, hps'⟩, ranges', hch', hest', hsl', hout'⟩ := pruneToStable_facts he' h'
  have hmem : ∀ p ∈ parts, Candidate parts none p := fun p hp => ⟨hp, by simp⟩
  have hmem' : ∀ p ∈ kept, Candidate kept none p := fun p hp => ⟨hp, by simp⟩
  have hlen : ∀ c ∈ ps, c.length = G.vcount := by
    intro c hc
    obtain ⟨p, hpc, rfl⟩ := (hps c).mp hc
    rw [canon_length]; exact hp p hpc.1
  have hlen' : ∀ c ∈ ps', c.length = G.vcount := by
    intro c hc
    obtain ⟨p, hpc, rfl⟩ := (hps' c).mp hc
    rw [canon_length]; exact hp' p hpc.1
  have hF := envelope he.toSoundEnv he'.toSoundEnv hG hlen hlen' (fun γ g0 gf c hc => by
      obtain ⟨p, hpc, rfl⟩ := (hps c).mp hc
      obtain ⟨q, hq, hle⟩ := hbelow γ g0 gf p hpc.1
      exact ⟨canon q, (hps' _).mpr ⟨q, hmem' q hq, rfl⟩, by
        rwa [modularity_canon (hp p hpc.1), modularity_canon (hp' q hq)]⟩)
    (fun γ g0 gf c hc => by
      obtain ⟨p, hpc, rfl⟩ := (hps' c).mp hc
      exact ⟨canon p, (hps _).mpr ⟨p, hmem p (hsub p hpc.1), rfl⟩, le_rfl⟩) hch hch'
  have hmemr : ∀ r ∈ ranges, r.2.2 ∈ ps := fun r hr => (c17_ranges_correct he.toSoundEnv hG hlen hch r hr).2.2.2.1
  have hmemr' : ∀ r ∈ ranges', r.2.2 ∈ ps' := fun r hr =>
    (c17_ranges_correct he'.toSoundEnv hG hlen' hch' r hr).2.2.2.1
  have heq : ranges' = ranges := by
    have : ∀ {A B : List (ℝ × ℝ × List Nat)},
        List.Forall₂ (fun r r' => r'.1 = r.1 ∧ r'.2.1 = r.2.1 ∧ SameModularity G r'.2.2 r.2.2) A B →
        (∀ r ∈ A, r.2.2 ∈ ps) → (∀ r ∈ B, r.2.2 ∈ ps') → B = A := by
      intro A B hF
      induction hF with
      | nil => intros; rfl
      | @cons r r' A B hab _ ih =>
        intro hA hB
        rw [ih (fun r hr => hA r (List.mem_cons_of_mem _ hr)) (fun r hr => hB r (List.mem_cons_of_mem _ hr))]
        obtain ⟨e1, e2, e3⟩ := hab
        obtain ⟨p, hpc, hpe⟩ := (hps _).mp (hA r List.mem_cons_self)
        obtain ⟨q, hqc, hqe⟩ := (hps' _).mp (hB r' List.mem_cons_self)
        have hpq : SamePartition q p := hdist q (hsub q hqc.1) p hpc.1 fun γ => by
          have := e3 γ
          rwa [← hpe, ← hqe, modularity_canon (hp p hpc.1), modularity_canon (hp' q hqc.1)] at this
        have e4 : r'.2.2 = r.2.2 := by rw [← hpe, ← hqe]; exact (canon_eq_iff q p).mpr hpq
        obtain ⟨a, b, c⟩ := r
        obtain ⟨a', b', c'⟩ := r'
        simp only at e1 e2 e4
        subst e1; subst e2; subst e4; rfl
    exact this hF hmemr hmemr'
  subst heq
  have hset : ∀ c, c ∈ out' ↔ c ∈ out := by
    intro c
    rw [hout, hout', htest]
    have hGG : ∀ r ∈ ranges', G'' = G' := by
      intro r hr
      obtain ⟨e, h1⟩ := hest r hr
      obtain ⟨e', h2⟩ := hest' r hr
      rw [htest, h2] at h1
      exact (Prod.mk.inj (Except.ok.inj h1)).2
    refine exists_congr fun r => and_congr_right fun hr => ?_
    rw [hGG r hr]
  have hnd : (ranges'.map fun r => r.2.2).Nodup := by
    rw [List.Nodup, List.pairwise_map]
    refine (c20_no_duplicates he.toSoundEnv hG hlen hch).2.imp ?_
    rintro r s ⟨γ, hne⟩ heq
    exact hne (by rw [heq])
  exact sublists_eq hnd hsl' hsl hset

/-- **C120 (pruning in batches loses nothing).** A partition that pruning everything at once returns is also returned when
the batches are pruned and the rest is pruned again. -/
theorem c120_prune_superset (he : SoundPruneEnv env) (he' : SoundPruneEnv env') (htest : env.test = env'.test)
    (hG : G.WF) (hp : ∀ p ∈ parts, p.length = G.vcount)
    (hdist : ∀ p ∈ parts, ∀ q ∈ parts, SameModularity G p q → SamePartition p q) {kept : List (List Nat)}
    (hb : PrunedInBatches env.test G γ₀ γf restrict parts kept)
    (h : pruneToStable env G (.memberships parts) γ₀ γf restrict st = (some (.ok (out, G')) : Option _))
    (h' : pruneToStable env' G (.memberships kept) γ₀ γf restrict st' = (some (.ok (out', G'')) : Option _)) :
    ∀ c ∈ out, c ∈ out' := by
  obtain ⟨batches, results, hruns, hparts, hkept⟩ := hb
  have hsubb : ∀ b ∈ batches, ∀ p ∈ b, p ∈ parts := fun b hb p hpb => (hparts p).mpr ⟨b, hb, hpb⟩
  have hdist' : ∀ p q, Candidate parts restrict p → Candidate parts restrict q → SameModularity G p q → SamePartition p q :=
    fun p q hp hq => hdist p hp.1 q hq.1
  have hk : ∀ c ∈ kept, ∃ p, Candidate parts restrict p ∧ canon p = c := by
    intro c hc
    obtain ⟨o, ho, hco⟩ := (hkept c).mp hc
    obtain ⟨b, hb, env₁, st₁, G₁, he₁, -, hrun⟩ := forall₂_right hruns ho
    obtain ⟨⟨p, hpc, hpr⟩, -⟩ := c38_sound he₁ hG (fun p hpb => hp p (hsubb b hb p hpb)) hrun c hco
    rw [sortedTuple_eq] at hpr
    exact ⟨p, ⟨hsubb b hb p hpc.1, hpc.2⟩, Except.ok.inj hpr⟩
  have hlenk : ∀ c ∈ kept, c.length = G.vcount := by
    intro c hc
    obtain ⟨p, hpc, rfl⟩ := hk c hc
    rw [canon_length]; exact hp p hpc.1
  intro c hc
  obtain ⟨p, hpc, hpr, hst⟩ := (c39_characterisation he hG hp hdist' h c).mp hc
  have hpe := hpr
  rw [sortedTuple_eq] at hpe
  have hpe := Except.ok.inj hpe
  obtain ⟨b, hb, hpb⟩ := (hparts p).mp hpc.1
  obtain ⟨o, ho, env₁, st₁, G₁, he₁, ht₁, hrun⟩ := forall₂_left hruns hb
  have hco := c41_fewer_competitors_exact he he₁ ht₁.symm hG hp (hsubb b hb) hdist' h hrun hpb hc hpr
  have hck : c ∈ kept := (hkept c).mpr ⟨o, ho, hco⟩
  have hcan : canon c = c := by rw [← hpe, canon_idem]
  have hcand : Candidate kept restrict c := ⟨hck, fun K hK => by rw [← hpe, dedup_length_canon]; exact hpc.2 K hK⟩
  refine (c39_characterisation he' hG hlenk (fun a d ha hd hs => ?_) h' c).mpr ⟨c, hcand, by rw [sortedTuple_eq, hcan], ?_⟩
  · obtain ⟨p₁, hp₁, rfl⟩ := hk a ha.1
    obtain ⟨p₂, hp₂, rfl⟩ := hk d hd.1
    rw [(canon_eq_iff p₁ p₂).mpr (hdist' p₁ p₂ hp₁ hp₂ fun γ => by
      have := hs γ
      rwa [modularity_canon (hp p₁ hp₁.1), modularity_canon (hp p₂ hp₂.1)] at this)]
    exact SamePartition.refl _
  · rw [← htest]
    refine Stable_transfer (hpe ▸ (canon_same p).symm) (hp p hpc.1) (fun q hq => ?_) hst
    obtain ⟨p₁, hp₁, rfl⟩ := hk q hq.1
    exact ⟨p₁, hp₁, fun γ => (modularity_canon (hp p₁ hp₁.1) γ).symm⟩

end

section
variable {α : Type} [LinearOrder α] {env env' : PruneEnv} {Gi Gx : Graph ℝ} {layer : List Nat} {model : String}
  {parts kept : List (List α)} {W : Window} {st st' : Bool} {out out' : List (List Nat)} {G' G'' : Graph ℝ}

theorem bestInside_of_kept (hsub : ∀ p ∈ kept, p ∈ parts)
    (hbelow : ∀ γ ω, (W.γ₀ ≤ γ ∧ γ ≤ W.γf) → (W.ω₀ ≤ ω ∧ ω ≤ W.ωf) → ∀ p ∈ parts, ∃ q ∈ kept,
      multilayerModularity Gi Gx layer γ ω p ≤ multilayerModularity Gi Gx layer γ ω q) {p : List α} {γ ω : ℝ}
    (hb : BestInside Gi Gx layer (Candidate kept none) W p γ ω) :
    BestInside Gi Gx layer (Candidate parts none) W p γ ω := by
  obtain ⟨hin, hbest⟩ := hb
  refine ⟨hin, fun q hq hne => ?_⟩
  by_contra hcon
  rw [not_lt] at hcon
  refine hne ?_
  have hcont : ∀ c : List α, Continuous fun z : ℝ × ℝ => multilayerModularity Gi Gx layer z.1 z.2 c := by
    intro c
    unfold multilayerModularity
    fun_prop
  have hU : {z : ℝ × ℝ | ((W.γ₀ < z.1 ∧ z.1 < W.γf) ∧ W.ω₀ < z.2 ∧ z.2 < W.ωf) ∧ ∀ k ∈ kept,
      multilayerModularity Gi Gx layer z.1 z.2 k ≤ multilayerModularity Gi Gx layer z.1 z.2 p} ∈ nhds (γ, ω) := by
    refine Filter.inter_mem ?_ ?_
    · refine IsOpen.mem_nhds ?_ hin
      exact ((isOpen_lt continuous_const continuous_fst).inter (isOpen_lt continuous_fst continuous_const)).inter
        ((isOpen_lt continuous_const continuous_snd).inter (isOpen_lt continuous_snd continuous_const))
    · have hall : ∀ k ∈ kept, ∀ᶠ z : ℝ × ℝ in nhds (γ, ω),
          multilayerModularity Gi Gx layer z.1 z.2 k ≤ multilayerModularity Gi Gx layer z.1 z.2 p := by
        intro k hk
        by_cases hs : SameMultilayer Gi Gx layer k p
        · exact Filter.Eventually.of_forall fun z => (hs _ _).le
        · have := hbest k ⟨hk, by simp⟩ hs
          exact ((isOpen_lt (hcont k) (hcont p)).mem_nhds this |> Filter.eventually_iff.mpr).mono fun z hz => le_of_lt hz
      have := (Filter.eventually_all_finite (List.finite_toSet kept)).mpr hall
      exact this
  exact same_of_touching hU (fun z hz => by
    obtain ⟨⟨⟨a1, a2⟩, a3, a4⟩, hz⟩ := hz
    obtain ⟨k, hk, hle⟩ := hbelow z.1 z.2 ⟨a1.le, a2.le⟩ ⟨a3.le, a4.le⟩ q hq.1
    exact hle.trans (hz k hk)) hcon

/-- **C120 (safe batching, multilayer).** `CHAMP_3D` in batches, then `prune_to_multilayer_stable_partitions` on what is left:
the same partitions as pruning everything at once, if different partitions have different coefficients. -/
theorem c120_champ_then_prune_multilayer (he : SoundPruneEnv env) (he' : SoundPruneEnv env')
    (htest : env.test = env'.test) (hfs : env.fsolve = env'.fsolve) (hM : Multilayer Gi Gx layer)
    (hp : ∀ p ∈ parts, p.length = Gi.vcount)
    (hdist : ∀ p ∈ parts, ∀ q ∈ parts, SameMultilayer Gi Gx layer p q → SamePartition p q)
    (hb : Batched3D Gi Gx layer W parts kept)
    (h : pruneToMultilayerStable env Gi Gx layer model (.memberships parts) W.γ₀ W.γf W.ω₀ W.ωf none st =
      (some (.ok (out, G')) : Option _))
    (h' : pruneToMultilayerStable env' Gi Gx layer model (.memberships kept) W.γ₀ W.γf W.ω₀ W.ωf none st' =
      (some (.ok (out', G'')) : Option _)) (c : List Nat) : c ∈ out' ↔ c ∈ out := by
  obtain ⟨hsub, hbelow⟩ := batched_facts_3D hM hp hb
  have hp' : ∀ p ∈ kept, p.length = Gi.vcount := fun p hpk => hp p (hsub p hpk)
  rw [c44_characterisation he hM hp (fun p q hp hq => hdist p hp.1 q hq.1) h,
    c44_characterisation he' hM hp' (fun p q hp hq => hdist p (hsub p hp.1) q (hsub q hq.1)) h', htest, hfs]
  constructor
  · rintro ⟨p, hpc, hpr, hst⟩
    refine ⟨p, ⟨hsub p hpc.1, by simp⟩, hpr, hst.imp ?_ ?_⟩
    · rintro ⟨γ, ω, hE, hB⟩
      exact ⟨γ, ω, hE, bestInside_of_kept hsub hbelow hB⟩
    · rintro ⟨hE, γ, ω, hB⟩
      exact ⟨hE, γ, ω, bestInside_of_kept hsub hbelow hB⟩
  · rintro ⟨p, hpc, hpr, hst⟩
    obtain ⟨γ, ω, hB⟩ : ∃ γ ω, BestInside Gi Gx layer (Candidate parts none) W p γ ω := by
      rcases hst with ⟨γ, ω, -, hB⟩ | ⟨-, γ, ω, hB⟩
      · exact ⟨_, _, hB⟩
      · exact ⟨_, _, hB⟩
    obtain ⟨⟨⟨a1, a2⟩, a3, a4⟩, hbest⟩ := hB
    obtain ⟨k, hk, hle⟩ := hbelow γ ω ⟨a1.le, a2.le⟩ ⟨a3.le, a4.le⟩ p hpc.1
    have hkp : SamePartition k p := hdist k (hsub k hk) p hpc.1 (by
      by_contra hne
      exact absurd (hbest k ⟨hsub k hk, by simp⟩ hne) (not_lt.mpr hle))
    refine ⟨k, ⟨hk, by simp⟩, by rw [← hpr, sortedTuple_eq, sortedTuple_eq, (canon_eq_iff k p).mpr hkp], ?_⟩
    exact multilayer_transfer hM hkp.symm (hp p hpc.1) (fun q' hq' => ⟨q', ⟨hsub q' hq'.1, by simp⟩, fun _ _ => rfl⟩) hst

end

/-! ### Pruning in batches is not pruning -/

theorem oddPart_coefs : withinAdj gReal [0, 1, 0, 0, 1] = 4 ∧ withinNull gReal [0, 1, 0, 0, 1] = 58 / 10 ∧
    withinAdj gReal [0, 0, 0, 0, 0] = 10 ∧ withinNull gReal [0, 0, 0, 0, 0] = 10 := by
  have r0 : rowSum gReal 0 = 2 := by decide
  have r1 : rowSum gReal 1 = 2 := by decide
  have r2 : rowSum gReal 2 = 2 := by decide
  have r3 : rowSum gReal 3 = 3 := by decide
  have r4 : rowSum gReal 4 = 1 := by decide
  have c0 : colSum gReal 0 = 2 := by decide
  have c1 : colSum gReal 1 = 2 := by decide
  have c2 : colSum gReal 2 = 2 := by decide
  have c3 : colSum gReal 3 = 3 := by decide
  have c4 : colSum gReal 4 = 1 := by decide
  have ht : total gReal = 10 := by decide
  have hv : gReal.vcount = 5 := rfl
  refine ⟨?_, ?_, ?_, ?_⟩
  · simp [withinAdj, gReal, adj, Finset.sum_range_succ]; norm_num
  · simp [withinNull, hv, r0, r1, r2, r3, r4, c0, c1, c2, c3, c4, ht, Finset.sum_range_succ]; norm_num
  · simp [withinAdj, gReal, adj, Finset.sum_range_succ]; norm_num
  · simp [withinNull, hv, r0, r1, r2, r3, r4, c0, c1, c2, c3, c4, ht, Finset.sum_range_succ]; norm_num

/-- **C120 (pruning in batches keeps too much).** On the five-vertex graph, with the batches `{0,1,2,3,4}` and
`{0,2,3},{1,4}` (different coefficients): pruning the two batches and pruning the rest again returns `{0,2,3},{1,4}`,
pruning both partitions at once does not. -/
theorem c120_prune_batches_unsafe : ∃ (parts kept out out' : List (List Nat)) (G' G'' : Graph ℝ),
    (∀ p ∈ parts, p.length = gReal.vcount) ∧
    (∀ p ∈ parts, ∀ q ∈ parts, SameModularity gReal p q → SamePartition p q) ∧
    PrunedInBatches pruneEnv.test gReal 0 2 none parts kept ∧
    pruneToStable pruneEnv gReal (.memberships parts) 0 2 none false = (some (.ok (out, G')) : Option _) ∧
    pruneToStable pruneEnv gReal (.memberships kept) 0 2 none false = (some (.ok (out', G'')) : Option _) ∧
    ∃ c ∈ out', c ∉ out := by
  obtain ⟨hA, hP, hA1, hP1⟩ := oddPart_coefs
  have hec : (gReal.ecount : ℝ) = 5 := by norm_num [gReal, Graph.ecount]
  have hcu : CountsAsUnweighted pruneEnv.test gReal := by intro h; cases h
  have hret : ∀ parts : List (List Nat), (∀ p ∈ parts, p.length = gReal.vcount) → ∃ out G',
      pruneToStable pruneEnv gReal (.memberships parts) 0 2 none false = (some (.ok (out, G')) : Option _) := fun parts hp =>
    c39_returns pruneEnv_sound exactEnv_exact gReal_wf rfl (by decide) (by decide) (by intro h; cases h) hp (by norm_num) none
      false
  obtain ⟨o₁, G₁, h₁⟩ := hret [[0, 0, 0, 0, 0]] (by decide)
  obtain ⟨o₂, G₂, h₂⟩ := hret [[0, 1, 0, 0, 1]] (by decide)
  have ho₁ : o₁ = [] := by
    refine List.eq_nil_iff_forall_not_mem.mpr fun c hc => ?_
    obtain ⟨⟨p, hpc, hpr⟩, γ, hg, -⟩ := c38_sound pruneEnv_sound gReal_wf (by decide) h₁ c hc
    obtain rfl := List.mem_singleton.mp hpc.1
    have hE : HasEstimate pruneEnv.test gReal [0, 0, 0, 0, 0] γ := ⟨c, _, hpr, hg⟩
    rw [hasEstimate_unweighted gReal_wf rfl (by decide) hcu rfl, hA1, hec] at hE
    have := hE.2.1
    norm_num at this
  have hest : ∀ γ, HasEstimate pruneEnv.test gReal [0, 1, 0, 0, 1] γ ↔
      γ = logMean (4 / (58 / 10)) ((10 - 4) / (10 - 58 / 10)) := by
    intro γ
    rw [hasEstimate_unweighted gReal_wf rfl (by decide) hcu rfl, hA, hP, hec]
    norm_num
  obtain ⟨b1, b2⟩ := logMean_between (a := 4 / (58 / 10)) (b := (10 - 4) / (10 - 58 / 10)) (by norm_num) (by norm_num)
    (by norm_num)
  generalize logMean (4 / (58 / 10)) ((10 - 4) / (10 - 58 / 10)) = g at *
  norm_num at b1 b2
  have ho₂ : [0, 1, 0, 0, 1] ∈ o₂ := by
    refine (c39_characterisation pruneEnv_sound gReal_wf (by decide) (fun p q hp hq _ => ?_) h₂ _).mpr
      ⟨[0, 1, 0, 0, 1], ⟨by simp, by simp⟩, by decide, ⟨g, by linarith, by linarith, fun q hq hne => ?_⟩, g, (hest g).mpr rfl,
        by linarith, by linarith, fun q hq => ?_⟩
    · rw [List.mem_singleton.mp hp.1, List.mem_singleton.mp hq.1]
      exact SamePartition.refl _
    · rw [List.mem_singleton.mp hq.1] at hne
      exact absurd (fun _ => rfl) hne
    · rw [List.mem_singleton.mp hq.1]
  have hlen₂ : ∀ p ∈ o₂, p.length = gReal.vcount := by
    intro c hc
    obtain ⟨⟨p, hpc, hpr⟩, -⟩ := c38_sound pruneEnv_sound gReal_wf (by decide) h₂ c hc
    rw [sortedTuple_eq] at hpr
    rw [← Except.ok.inj hpr, canon_length, List.mem_singleton.mp hpc.1]
    rfl
  obtain ⟨out', G'', h'⟩ := hret o₂ hlen₂
  obtain ⟨out, G', h⟩ := hret [[0, 0, 0, 0, 0], [0, 1, 0, 0, 1]] (by decide)
  refine ⟨[[0, 0, 0, 0, 0], [0, 1, 0, 0, 1]], o₂, out, out', G', G'', by decide, ?_, ?_, h, h', [0, 1, 0, 0, 1],
    (c41_idempotent pruneEnv_sound pruneEnv_sound rfl gReal_wf (by decide) (Or.inl rfl) h₂ h' _).mp ho₂, ?_⟩
  · intro p hp q hq hs
    have h0 := hs 0
    simp only [modularity_affine, zero_mul, sub_zero] at h0
    simp only [List.mem_cons, List.not_mem_nil, or_false] at hp hq
    rcases hp with rfl | rfl <;> rcases hq with rfl | rfl <;>
      first
      | exact SamePartition.refl _
      | (exfalso; simp only [hA, hA1] at h0; norm_num at h0)
  · refine ⟨[[[0, 0, 0, 0, 0]], [[0, 1, 0, 0, 1]]], [o₁, o₂],
      .cons ⟨_, _, _, pruneEnv_sound, rfl, h₁⟩ (.cons ⟨_, _, _, pruneEnv_sound, rfl, h₂⟩ .nil), fun p => by simp, fun c => ?_⟩
    simp [ho₁]
  · intro hc
    obtain ⟨⟨p, hpc, hpr⟩, γ, hg, -, -, hopt⟩ := c38_sound pruneEnv_sound gReal_wf (by decide) h _ hc
    have hE : HasEstimate pruneEnv.test gReal [0, 1, 0, 0, 1] γ := ⟨[0, 1, 0, 0, 1], _, by decide, hg⟩
    obtain rfl := (hest γ).mp hE
    have := hopt [0, 0, 0, 0, 0] ⟨by simp, by simp⟩
    rw [modularity_affine, modularity_affine, hA, hP, hA1, hP1] at this
    linarith

/-! ### Witnesses -/

/-- two batches of two partitions each, overlapping; both final runs return -/
example : ∃ kept ranges ranges', Batched2D gReal 0 2 threeParts kept ∧
    champ2D exactEnv gReal threeParts 0 2 false = (some (.ok ranges) : Option _) ∧
    champ2D exactEnv gReal kept 0 2 true = (some (.ok ranges') : Option _) ∧ ranges ≠ [] ∧
    List.Forall₂ (fun r r' => r'.1 = r.1 ∧ r'.2.1 = r.2.1 ∧ SameModularity gReal r'.2.2 r.2.2) ranges ranges' := by
  have hret : ∀ (parts : List (List Nat)) (st : Bool), parts ≠ [] → (∀ p ∈ parts, p.length = gReal.vcount) →
      ∃ ranges, champ2D exactEnv gReal parts 0 2 st = (some (.ok ranges) : Option _) := fun parts st hne hp =>
    c17_returns exactEnv_exact gReal_wf rfl (by decide) hp hne (by norm_num) st
  obtain ⟨r₁, h₁⟩ := hret [[4, 4, 4, 4, 4], [7, 7, 2, 2, 2]] false (by decide) (by decide)
  obtain ⟨r₂, h₂⟩ := hret [[4, 3, 2, 1, 0], [7, 7, 2, 2, 2]] true (by decide) (by decide)
  have hb : Batched2D gReal 0 2 threeParts ((r₁ ++ r₂).map fun r => r.2.2) := by
    refine ⟨_, [r₁, r₂], .cons ⟨_, _, exactEnv_exact.toSoundEnv, h₁⟩ (.cons ⟨_, _, exactEnv_exact.toSoundEnv, h₂⟩ .nil),
      fun p => ?_, fun p => ?_⟩
    · simp only [threeParts, List.mem_cons, List.not_mem_nil, or_false, exists_eq_or_imp, exists_eq_left]
      tauto
    · simp only [List.map_append, List.mem_append, List.mem_map, List.mem_cons, List.not_mem_nil, or_false, exists_eq_or_imp,
        exists_eq_left]
  have hf := batched_facts gReal_wf (by decide) hb
  obtain ⟨k, hk, -⟩ := hf.2 0 le_rfl (by norm_num) [7, 7, 2, 2, 2] (by decide)
  obtain ⟨ranges, h⟩ := hret threeParts false (by decide) (by decide)
  obtain ⟨ranges', h'⟩ := hret _ true (List.ne_nil_of_mem hk) fun p hp =>
    (by decide : ∀ p ∈ threeParts, p.length = gReal.vcount) p (hf.1 p hp)
  refine ⟨_, ranges, ranges', hb, h, h', ?_,
    c120_champ2D exactEnv_exact.toSoundEnv exactEnv_exact.toSoundEnv gReal_wf (by decide) hb h h'⟩
  obtain ⟨r, hr, -⟩ := c18_ranges_cover exactEnv_exact.toSoundEnv gReal_wf (by decide) (by decide : threeParts ≠ []) h
    (γ := 1) (by norm_num) (by norm_num)
  exact List.ne_nil_of_mem hr

/-- CHAMP on one batch, then pruning: the stable partition `{0,1},{2,3,4}` comes out both ways -/
example : ∃ kept out G', Batched2D gReal 0 2 threeParts kept ∧
    pruneToStable pruneEnv gReal (.memberships kept) 0 2 none true = (some (.ok (out, G')) : Option _) ∧
    [0, 0, 1, 1, 1] ∈ out := by
  obtain ⟨r, h⟩ := c17_returns exactEnv_exact gReal_wf rfl (by decide) (by decide : ∀ p ∈ threeParts, p.length = gReal.vcount)
    (by decide) (by norm_num : (0 : ℝ) < 2) false
  have hb : Batched2D gReal 0 2 threeParts (r.map fun r => r.2.2) :=
    ⟨[threeParts], [r], .cons ⟨_, _, exactEnv_exact.toSoundEnv, h⟩ .nil, fun p => by simp, fun p => by simp⟩
  have hf := batched_facts gReal_wf (by decide) hb
  obtain ⟨out, G', h1⟩ := c39_returns pruneEnv_sound exactEnv_exact gReal_wf rfl (by decide) (by decide)
    (by intro h; cases h) (by decide : ∀ p ∈ threeParts, p.length = gReal.vcount) (by norm_num : (0 : ℝ) < 2) none false
  obtain ⟨out', G'', h2⟩ := c39_returns pruneEnv_sound exactEnv_exact gReal_wf rfl (by decide) (by decide)
    (by intro h; cases h) (fun p hp => (by decide : ∀ p ∈ threeParts, p.length = gReal.vcount) p (hf.1 p hp))
    (by norm_num : (0 : ℝ) < 2) none true
  refine ⟨_, out', G'', hb, h2, ?_⟩
  rw [c120_champ_then_prune pruneEnv_sound pruneEnv_sound rfl gReal_wf (by decide)
    (fun p hp q hq => threeParts_distinct p q ⟨hp, by simp⟩ ⟨hq, by simp⟩) hb h1 h2]
  exact threeParts_returned h1

/-- the multilayer batches: two partitions of a two-layer network, one in each batch -/
example : ∃ kept doms doms', Batched3D gIntraR gInterR [0, 0, 0, 1, 1, 1] ⟨0, 2, 0, 2⟩ [[0, 0, 1, 0, 0, 1], [0, 0, 0, 0, 0, 0]]
      kept ∧ champ3D exactEnv gIntraR gInterR [0, 0, 0, 1, 1, 1] [[0, 0, 1, 0, 0, 1], [0, 0, 0, 0, 0, 0]] 0 2 0 2 =
      (some (.ok doms) : Option _) ∧
    champ3D exactEnv gIntraR gInterR [0, 0, 0, 1, 1, 1] kept 0 2 0 2 = (some (.ok doms') : Option _) ∧
    doms'.length = doms.length := by
  have hret : ∀ parts : List (List Nat), parts ≠ [] → (∀ p ∈ parts, p.length = gIntraR.vcount) →
      ∃ doms, champ3D exactEnv gIntraR gInterR [0, 0, 0, 1, 1, 1] parts 0 2 0 2 = (some (.ok doms) : Option _) :=
    fun parts hne hp => c21_returns exactEnv_exact gIntraR_multilayer rfl (by decide) (by decide) hp hne (by norm_num)
      (by norm_num)
  obtain ⟨d₁, h₁⟩ := hret [[0, 0, 1, 0, 0, 1]] (by decide) (by decide)
  obtain ⟨d₂, h₂⟩ := hret [[0, 0, 0, 0, 0, 0]] (by decide) (by decide)
  have hb : Batched3D gIntraR gInterR [0, 0, 0, 1, 1, 1] ⟨0, 2, 0, 2⟩ [[0, 0, 1, 0, 0, 1], [0, 0, 0, 0, 0, 0]]
      ((d₁ ++ d₂).map fun d => d.2) := by
    refine ⟨_, [d₁, d₂], .cons ⟨_, exactEnv_exact.toSoundEnv, h₁⟩ (.cons ⟨_, exactEnv_exact.toSoundEnv, h₂⟩ .nil),
      fun p => by simp, fun p => ?_⟩
    simp only [List.map_append, List.mem_append, List.mem_map, List.mem_cons, List.not_mem_nil, or_false, exists_eq_or_imp,
      exists_eq_left]
  have hf := batched_facts_3D gIntraR_multilayer (by decide) hb
  obtain ⟨k, hk, -⟩ := hf.2 0 0 (by norm_num) (by norm_num) [0, 0, 0, 0, 0, 0] (by decide)
  obtain ⟨doms, h⟩ := hret [[0, 0, 1, 0, 0, 1], [0, 0, 0, 0, 0, 0]] (by decide) (by decide)
  obtain ⟨doms', h'⟩ := hret _ (List.ne_nil_of_mem hk) fun p hp =>
    (by decide : ∀ p ∈ [[0, 0, 1, 0, 0, 1], [0, 0, 0, 0, 0, 0]], p.length = gIntraR.vcount) p (hf.1 p hp)
  exact ⟨_, doms, doms', hb, h, h',
    (c120_champ3D (W := ⟨0, 2, 0, 2⟩) exactEnv_exact.toSoundEnv exactEnv_exact.toSoundEnv gIntraR_multilayer (by decide) hb h h').1⟩

end Verif.Props
