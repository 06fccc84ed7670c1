import Verif.Spec.ChampExample
import Verif.Props.Champ2D

/-!
# Property C107: the worked example of CHAMP (figure 3.1)
-/

namespace Verif.Props
open Verif Verif.Spec

variable {env : ChampEnv} {G : Graph ℝ} {q : List Nat → ℝ → ℝ}

theorem pyMaxKey_spec {β : Type} {key : β → ℝ} {l : List β} {b : β} (h : pyMaxKey key l = .ok b) :
    b ∈ l ∧ ∀ y ∈ l, key y ≤ key b := by
  have aux : ∀ (xs : List β) (x : β), (xs.foldl (fun b y => if key b < key y then y else b) x) ∈ x :: xs ∧
      ∀ y ∈ x :: xs, key y ≤ key (xs.foldl (fun b y => if key b < key y then y else b) x) := by
    intro xs
    induction xs with
    | nil => intro x; simp
    | cons z zs ih =>
      intro x
      rw [List.foldl_cons]
      obtain ⟨h1, h2⟩ := ih (if key x < key z then z else x)
      constructor
      · rcases List.mem_cons.1 h1 with h1 | h1
        · rw [h1]; split_ifs <;> simp
        · simp [h1]
      · intro y hy
        have h3 := h2 _ List.mem_cons_self
        rcases List.mem_cons.1 hy with rfl | hy
        · refine le_trans ?_ h3
          split_ifs with hc
          · exact hc.le
          · exact le_refl _
        rcases List.mem_cons.1 hy with rfl | hy
        · refine le_trans ?_ h3
          split_ifs with hc
          · exact le_refl _
          · exact not_lt.1 hc
        · exact h2 _ (List.mem_cons_of_mem _ hy)
  cases l with
  | nil => cases h
  | cons x xs => cases h; exact aux xs x

theorem pyMinKey_spec {β : Type} {key : β → ℝ} {l : List β} {b : β} (h : pyMinKey key l = .ok b) :
    b ∈ l ∧ ∀ y ∈ l, key b ≤ key y := by
  have h' : pyMaxKey (fun x => - key x) l = .ok b := by
    cases l with
    | nil => cases h
    | cons x xs => rw [← h]; simp [pyMaxKey, pyMinKey]
  obtain ⟨h1, h2⟩ := pyMaxKey_spec h'
  exact ⟨h1, fun y hy => neg_le_neg_iff.1 (h2 y hy)⟩

/-- **C107.** The sampled partitions: four of them, made at 0.5, 1.0, 1.5 and 2.0 in this order; each is the result of one of the runs
at its resolution; the one at 1.0 has the lowest quality of the runs, the others the highest. -/
theorem c107_sample {find : ℝ → Nat → List Nat} {runs : Nat} {parts : List LouvainPart}
    (h : samplePartitions q find runs = .ok parts) :
    ∃ a b c d : Nat, a < runs ∧ b < runs ∧ c < runs ∧ d < runs ∧
      parts = [⟨0.5, find 0.5 a⟩, ⟨1.0, find 1.0 b⟩, ⟨1.5, find 1.5 c⟩, ⟨2.0, find 2.0 d⟩] ∧
      ∀ k < runs, q (find 0.5 k) 0.5 ≤ q (find 0.5 a) 0.5 ∧ q (find 1.0 b) 1.0 ≤ q (find 1.0 k) 1.0 ∧
        q (find 1.5 k) 1.5 ≤ q (find 1.5 c) 1.5 ∧ q (find 2.0 k) 2.0 ≤ q (find 2.0 d) 2.0 := by
  have hmax : ∀ {γ : ℝ} {p : LouvainPart}, γ ≠ 1.0 →
      (if γ = 1.0 then pyMinKey (fun p : LouvainPart => q p.mem p.res) ((List.range runs).map fun k => (⟨γ, find γ k⟩ : LouvainPart))
       else pyMaxKey (fun p : LouvainPart => q p.mem p.res) ((List.range runs).map fun k => (⟨γ, find γ k⟩ : LouvainPart))) = .ok p →
      ∃ a < runs, p = ⟨γ, find γ a⟩ ∧ ∀ k < runs, q (find γ k) γ ≤ q (find γ a) γ := by
    intro γ p hγ hp
    rw [if_neg hγ] at hp
    obtain ⟨h1, h2⟩ := pyMaxKey_spec hp
    obtain ⟨a, ha, rfl⟩ := List.mem_map.1 h1
    exact ⟨a, List.mem_range.1 ha, rfl, fun k hk => h2 _ (List.mem_map.2 ⟨k, List.mem_range.2 hk, rfl⟩)⟩
  unfold samplePartitions sampleGammas at h
  simp only [List.mapM_cons, List.mapM_nil] at h
  obtain ⟨p0, h0, h⟩ := Py.bind_ok.1 h
  obtain ⟨l1, hl1, h⟩ := Py.bind_ok.1 h
  obtain ⟨p1, h1, hl1⟩ := Py.bind_ok.1 hl1
  obtain ⟨l2, hl2, hl1⟩ := Py.bind_ok.1 hl1
  obtain ⟨p2, h2, hl2⟩ := Py.bind_ok.1 hl2
  obtain ⟨l3, hl3, hl2⟩ := Py.bind_ok.1 hl2
  obtain ⟨p3, h3, hl3⟩ := Py.bind_ok.1 hl3
  obtain ⟨l4, hl4, hl3⟩ := Py.bind_ok.1 hl3
  cases hl4; cases hl3; cases hl2; cases hl1; cases h
  obtain ⟨a, ha, rfl, hA⟩ := hmax (by norm_num) h0
  obtain ⟨c, hc, rfl, hC⟩ := hmax (by norm_num) h2
  obtain ⟨d, hd, rfl, hD⟩ := hmax (by norm_num) h3
  rw [if_pos trivial] at h1
  obtain ⟨e1, e2⟩ := pyMinKey_spec h1
  obtain ⟨b, hb, rfl⟩ := List.mem_map.1 e1
  exact ⟨a, b, c, d, ha, List.mem_range.1 hb, hc, hd, rfl, fun k hk =>
    ⟨hA k hk, e2 _ (List.mem_map.2 ⟨k, List.mem_range.2 hk, rfl⟩), hC k hk, hD k hk⟩⟩

/-- **C107.** With at least one run per resolution the sampling does not fail. -/
theorem c107_sample_returns (q : List Nat → ℝ → ℝ) (find : ℝ → Nat → List Nat) {runs : Nat} (hr : 0 < runs) :
    ∃ parts, samplePartitions q find runs = .ok parts := by
  obtain ⟨n, rfl⟩ := Nat.exists_eq_succ_of_ne_zero hr.ne'
  have key : ∀ γ : ℝ, ∃ p, (if γ = 1.0 then
        pyMinKey (fun p : LouvainPart => q p.mem p.res) ((List.range n.succ).map fun k => (⟨γ, find γ k⟩ : LouvainPart))
       else pyMaxKey (fun p : LouvainPart => q p.mem p.res) ((List.range n.succ).map fun k => (⟨γ, find γ k⟩ : LouvainPart))) = .ok p := by
    intro γ
    rw [List.range_succ_eq_map, List.map_cons]
    split_ifs <;> exact ⟨_, rfl⟩
  choose p hp using key
  unfold samplePartitions
  dsimp only
  simp only [hp]
  exact ⟨_, mapM_pure' _ _⟩
where
  mapM_pure' (l : List ℝ) (p : ℝ → LouvainPart) : l.mapM (fun γ => (.ok (p γ) : Py LouvainPart)) = .ok (l.map p) := by
    induction l with
    | nil => rfl
    | cons x xs ih => rw [List.mapM_cons, ih]; rfl

section
variable {cs : List (List Nat)} {lo hi : ℝ} {st : Bool} {ranges : List (ℝ × ℝ × List Nat)}

/-- every strictly best one is returned, in a range containing its resolution -/
theorem strictlyBest_found (he : SoundEnv env) (hG : G.WF) (hlen : ∀ x ∈ cs, x.length = G.vcount)
    (h : champ2D env G cs lo hi st = (some (.ok ranges) : Option _)) {x : List Nat} {γ : ℝ} (hx : StrictlyBestAt G cs γ x)
    (h0 : lo ≤ γ) (hf : γ ≤ hi) : ∃ r ∈ ranges, r.1 ≤ γ ∧ γ ≤ r.2.1 ∧ r.2.2 = x := by
  obtain ⟨r, hr, h1, h2, h3⟩ := c18_ranges_cover he hG hlen (List.ne_nil_of_mem hx.1) h h0 hf
  refine ⟨r, hr, h1, h2, ?_⟩
  by_contra hne
  have := hx.2 _ (c17_ranges_correct he hG hlen h r hr).2.2.2.1 hne
  have := h3 x hx.1
  linarith

theorem strictlyBest_only (he : SoundEnv env) (hG : G.WF) (hlen : ∀ x ∈ cs, x.length = G.vcount)
    (h : champ2D env G cs lo hi st = (some (.ok ranges) : Option _)) {x : List Nat} {γ : ℝ} (hx : StrictlyBestAt G cs γ x)
    {r : ℝ × ℝ × List Nat} (hr : r ∈ ranges) (hne : r.2.2 ≠ x) : γ < r.1 ∨ r.2.1 < γ := by
  by_contra hcon
  push Not at hcon
  have h1 := c17_ranges_correct he hG hlen h r hr
  have h2 := ((h1.2.2.2.2 γ).1 hcon).2 x hx.1
  have := hx.2 _ h1.2.2.2.1 hne
  linarith

theorem ranges_inj (he : SoundEnv env) (hG : G.WF) (hlen : ∀ x ∈ cs, x.length = G.vcount)
    (h : champ2D env G cs lo hi st = (some (.ok ranges) : Option _)) {r s : ℝ × ℝ × List Nat} (hr : r ∈ ranges) (hs : s ∈ ranges)
    (e : r.2.2 = s.2.2) : r = s := by
  by_contra hne
  have hpw := (c20_no_duplicates he hG hlen h).2
  have : Std.Symm (fun r s : ℝ × ℝ × List Nat => ∃ γ, modularity G γ r.2.2 ≠ modularity G γ s.2.2) :=
    ⟨fun r s ⟨γ, hγ⟩ => ⟨γ, hγ.symm⟩⟩
  obtain ⟨γ, hγ⟩ := hpw.forall hr hs hne
  exact hγ (by rw [e])

/-- resolutions in increasing order, a strictly best membership for each, and no other membership returned: the ranges are theirs, in
that order -/
theorem ranges_in_order (he : SoundEnv env) (hG : G.WF) (hlen : ∀ x ∈ cs, x.length = G.vcount)
    (h : champ2D env G cs lo hi st = (some (.ok ranges) : Option _)) (best : List (ℝ × List Nat))
    (hγ : best.Pairwise fun x y => x.1 < y.1) (hx : best.Pairwise fun x y => x.2 ≠ y.2)
    (hb : ∀ x ∈ best, StrictlyBestAt G cs x.1 x.2 ∧ lo ≤ x.1 ∧ x.1 ≤ hi) (ho : ∀ r ∈ ranges, r.2.2 ∈ best.map Prod.snd) :
    List.Forall₂ (fun r x => r.2.2 = x.2 ∧ r.1 ≤ x.1 ∧ x.1 ≤ r.2.1) ranges best := by
  have hcs : cs ≠ [] ∨ best = [] := by
    cases best with
    | nil => exact .inr rfl
    | cons x _ => exact .inl (List.ne_nil_of_mem (hb x (by simp)).1.1)
  rcases hcs with hcs | rfl
  swap
  · cases ranges with
    | nil => exact .nil
    | cons r _ => simpa using ho r (by simp)
  have t4 := (c19_sorted_tiling he hG hlen hcs h).2.2.2
  choose f hf1 hf2 using fun x (hx : x ∈ best) => strictlyBest_found he hG hlen h (hb x hx).1 (hb x hx).2.1 (hb x hx).2.2
  have hbel : ∀ x hx y hy, x.1 < y.1 → x.2 ≠ y.2 → (f x hx).1 < (f y hy).1 := by
    intro x hx y hy hlt hne
    have h1 := strictlyBest_only he hG hlen h (hb x hx).1 (hf1 y hy) (by rw [(hf2 y hy).2.2]; exact hne.symm)
    obtain ⟨h2, -, -⟩ := hf2 x hx
    obtain ⟨-, h4, -⟩ := hf2 y hy
    rcases h1 with h1 | h1
    · linarith
    · linarith
  have hpw : (best.attach.map fun x => f x.1 x.2).Pairwise fun r s => r.1 < s.1 := by
    rw [List.pairwise_map]
    have hp := hγ.and hx
    rw [← List.attach_map_subtype_val best, List.pairwise_map] at hp
    exact hp.imp fun {x y} hxy => hbel _ x.2 _ y.2 hxy.1 hxy.2
  have nod : ∀ l : List (ℝ × ℝ × List Nat), (l.Pairwise fun r s => r.1 < s.1) → l.Nodup := fun l hl =>
    hl.imp fun {r s} (hrs : r.1 < s.1) e => by rw [e] at hrs; exact lt_irrefl _ hrs
  have hperm : ranges.Perm (best.attach.map fun x => f x.1 x.2) := by
    refine (List.perm_ext_iff_of_nodup (nod _ t4) (nod _ hpw)).2 fun r => ⟨fun hr => ?_, fun hr => ?_⟩
    · obtain ⟨x, hx, hxr⟩ := List.mem_map.1 (ho r hr)
      refine List.mem_map.2 ⟨⟨x, hx⟩, List.mem_attach _ _, ?_⟩
      exact ranges_inj he hG hlen h (hf1 x hx) hr ((hf2 x hx).2.2.trans hxr)
    · obtain ⟨x, -, rfl⟩ := List.mem_map.1 hr
      exact hf1 _ _
  have hr : ranges = best.attach.map fun x => f x.1 x.2 := by
    refine hperm.eq_of_pairwise ?_ t4 hpw
    intro r s _ _ h1 h2
    exact absurd h2 (lt_asymm h1)
  rw [hr, List.forall₂_map_left_iff]
  conv => rhs; rw [← List.attach_map_subtype_val best]
  rw [List.forall₂_map_right_iff, List.forall₂_same]
  intro x _
  exact ⟨(hf2 _ x.2).2.2, (hf2 _ x.2).1, (hf2 _ x.2).2.1⟩
end

theorem ranges_three (he : SoundEnv env) (hG : G.WF) {a b c d : List Nat} (hlen : ∀ x ∈ [a, b, c, d], x.length = G.vcount)
    {st : Bool} {ranges : List (ℝ × ℝ × List Nat)} (h : champ2D env G [a, b, c, d] plotLo plotHi st = (some (.ok ranges) : Option _))
    (hn : [a, b, c, d].Nodup)
    (ha : StrictlyBestAt G [a, b, c, d] 0.5 a) (hc : StrictlyBestAt G [a, b, c, d] 1.5 c) (hd : StrictlyBestAt G [a, b, c, d] 2.0 d)
    (hb : ∀ γ, plotLo ≤ γ → γ ≤ plotHi → ¬ StrictlyBestAt G [a, b, c, d] γ b) :
    ∃ u v : ℝ, ranges = [(plotLo, u, a), (u, v, c), (v, plotHi, d)] ∧ 0.5 < u ∧ u < 1.5 ∧ 1.5 < v ∧ v < 2.0 := by
  have hlo : plotLo = 0.25 := rfl
  have hhi : plotHi = 2.25 := rfl
  obtain ⟨hab, hac, had, hbc, hbd, hcd⟩ : a ≠ b ∧ a ≠ c ∧ a ≠ d ∧ b ≠ c ∧ b ≠ d ∧ c ≠ d := by
    simp only [List.nodup_cons, List.mem_cons, List.not_mem_nil, or_false, not_or] at hn
    tauto
  have hnb : ∀ r ∈ ranges, r.2.2 ≠ b := by
    intro r hr hrb
    have h1 := c17_ranges_correct he hG hlen h r hr
    refine hb ((r.1 + r.2.1) / 2) (by linarith [h1.1]) (by linarith [h1.2.2.1]) ⟨by simp, ?_⟩
    intro c' hc' hne
    have := c20_returned_strictly_optimal he hG hlen h r hr ((r.1 + r.2.1) / 2) (by linarith [h1.2.1]) (by linarith [h1.2.1]) c' hc'
    rw [hrb] at this
    apply this
    rcases List.mem_cons.1 hc' with rfl | hc'
    · exact ⟨0.5, (ha.2 b (by simp) hab.symm).ne'⟩
    rcases List.mem_cons.1 hc' with rfl | hc'
    · exact absurd rfl hne
    rcases List.mem_cons.1 hc' with rfl | hc'
    · exact ⟨1.5, (hc.2 b (by simp) hbc).ne'⟩
    rcases List.mem_singleton.1 hc' with rfl
    exact ⟨2.0, (hd.2 b (by simp) hbd).ne'⟩
  have hall := ranges_in_order he hG hlen h [(0.5, a), (1.5, c), (2.0, d)] (by norm_num) (by simp [hac, had, hcd])
    (by
      intro x hx
      simp only [List.mem_cons, List.not_mem_nil, or_false] at hx
      rcases hx with rfl | rfl | rfl
      · exact ⟨ha, by rw [hlo]; norm_num, by rw [hhi]; norm_num⟩
      · exact ⟨hc, by rw [hlo]; norm_num, by rw [hhi]; norm_num⟩
      · exact ⟨hd, by rw [hlo]; norm_num, by rw [hhi]; norm_num⟩)
    (by
      intro r hr
      have hm := (c17_ranges_correct he hG hlen h r hr).2.2.2.1
      have := hnb r hr
      simp only [List.mem_cons, List.not_mem_nil, or_false, List.map_cons, List.map_nil] at hm ⊢
      tauto)
  obtain ⟨t1, t2, t3, t4⟩ := c19_sorted_tiling he hG hlen (by simp) h
  have hone := fun (x : List Nat) (γ : ℝ) (hx : StrictlyBestAt G [a, b, c, d] γ x) (r : ℝ × ℝ × List Nat) (hr : r ∈ ranges)
    (hne : r.2.2 ≠ x) => strictlyBest_only he hG hlen h hx hr hne
  cases hall with | @cons ra _ _ _ h1 hall =>
  cases hall with | @cons rc _ _ _ h2 hall =>
  cases hall with | @cons rd _ _ _ h3 hall =>
  cases hall
  simp only [List.head?_cons, Option.map_some, Option.some.injEq, List.getLast?_cons_cons, List.getLast?_singleton] at t1 t2
  simp only [List.isChain_cons_cons, List.isChain_singleton, and_true] at t3
  obtain ⟨ra1, ra2, ra3⟩ := ra
  obtain ⟨rc1, rc2, rc3⟩ := rc
  obtain ⟨rd1, rd2, rd3⟩ := rd
  have q1 := hone a 0.5 ha _ (by simp : (rc1, rc2, rc3) ∈ _) (by rw [h2.1]; exact hac.symm)
  have q2 := hone c 1.5 hc _ (by simp : (rd1, rd2, rd3) ∈ _) (by rw [h3.1]; exact hcd.symm)
  have q3 := hone c 1.5 hc _ (by simp : (ra1, ra2, ra3) ∈ _) (by rw [h1.1]; exact hac)
  have q4 := hone d 2.0 hd _ (by simp : (rc1, rc2, rc3) ∈ _) (by rw [h2.1]; exact hcd)
  clear hone hnb
  dsimp only at *
  obtain ⟨rfl, rfl⟩ := t3
  obtain ⟨rfl, h11, h12⟩ := h1
  obtain ⟨rfl, h21, h22⟩ := h2
  obtain ⟨rfl, h31, h32⟩ := h3
  subst t1 t2
  refine ⟨ra2, rc2, rfl, ?_, ?_, ?_, ?_⟩
  · rcases q1 with h | h <;> norm_num at * <;> linarith
  · rcases q3 with h | h <;> norm_num at * <;> linarith
  · rcases q2 with h | h <;> norm_num at * <;> linarith
  · rcases q4 with h | h <;> norm_num at * <;> linarith

theorem ranges_four (he : SoundEnv env) (hG : G.WF) {a b c d : List Nat} (hlen : ∀ x ∈ [a, b, c, d], x.length = G.vcount)
    {st : Bool} {ranges : List (ℝ × ℝ × List Nat)} (h : champ2D env G [a, b, c, d] plotLo plotHi st = (some (.ok ranges) : Option _))
    (hn : [a, b, c, d].Nodup)
    (ha : StrictlyBestAt G [a, b, c, d] 0.5 a) (hb : StrictlyBestAt G [a, b, c, d] 1.0 b)
    (hc : StrictlyBestAt G [a, b, c, d] 1.5 c) (hd : StrictlyBestAt G [a, b, c, d] 2.0 d) :
    ∃ r0 r1 r2 r3, ranges = [r0, r1, r2, r3] ∧ r1.1 ≤ 1.0 ∧ 1.0 ≤ r1.2.1 ∧ r2.2.1 < 2.0 := by
  have hlo : plotLo = 0.25 := rfl
  have hhi : plotHi = 2.25 := rfl
  obtain ⟨hab, hac, had, hbc, hbd, hcd⟩ : a ≠ b ∧ a ≠ c ∧ a ≠ d ∧ b ≠ c ∧ b ≠ d ∧ c ≠ d := by
    simp only [List.nodup_cons, List.mem_cons, List.not_mem_nil, or_false, not_or] at hn
    tauto
  have hall := ranges_in_order he hG hlen h [(0.5, a), (1.0, b), (1.5, c), (2.0, d)] (by norm_num) (by simp [hab, hac, had, hbc, hbd, hcd])
    (by
      intro x hx
      simp only [List.mem_cons, List.not_mem_nil, or_false] at hx
      rcases hx with rfl | rfl | rfl | rfl
      · exact ⟨ha, by rw [hlo]; norm_num, by rw [hhi]; norm_num⟩
      · exact ⟨hb, by rw [hlo]; norm_num, by rw [hhi]; norm_num⟩
      · exact ⟨hc, by rw [hlo]; norm_num, by rw [hhi]; norm_num⟩
      · exact ⟨hd, by rw [hlo]; norm_num, by rw [hhi]; norm_num⟩)
    (by
      intro r hr
      have hm := (c17_ranges_correct he hG hlen h r hr).2.2.2.1
      simp only [List.mem_cons, List.not_mem_nil, or_false, List.map_cons, List.map_nil] at hm ⊢
      tauto)
  have hone := fun (x : List Nat) (γ : ℝ) (hx : StrictlyBestAt G [a, b, c, d] γ x) (r : ℝ × ℝ × List Nat) (hr : r ∈ ranges)
    (hne : r.2.2 ≠ x) => strictlyBest_only he hG hlen h hx hr hne
  cases hall with | @cons ra _ _ _ h1 hall =>
  cases hall with | @cons rb _ _ _ h2 hall =>
  cases hall with | @cons rc _ _ _ h3 hall =>
  cases hall with | @cons rd _ _ _ h4 hall =>
  cases hall
  have q4 := hone d 2.0 hd rc (by simp) (by rw [h3.1]; exact hcd)
  refine ⟨ra, rb, rc, rd, rfl, h2.2.1, h2.2.2, ?_⟩
  have := h3.2.1
  rcases q4 with h | h
  · norm_num at *; linarith
  · exact h

variable {a b c d : List Nat}

theorem rightPanel_run {g₀ g₁ g₂ g₃ : ℝ} {ranges : List (ℝ × ℝ × List Nat)}
    (h : champ2D env G [a, b, c, d] plotLo plotHi false = (some (.ok ranges) : Option _)) :
    plotRightPanel env q G [⟨g₀, a⟩, ⟨g₁, b⟩, ⟨g₂, c⟩, ⟨g₃, d⟩] =
      (match ranges with
      | r0 :: r1 :: r2 :: _ => (some (.ok
          { segments := [([r0.1, r0.2.1], [q a r0.1 / (2 * G.ecount), q a r0.2.1 / (2 * G.ecount)]),
              ([r1.1, r1.2.1], [q c r1.1 / (2 * G.ecount), q c r1.2.1 / (2 * G.ecount)]),
              ([r2.1, r2.2.1], [q d r2.1 / (2 * G.ecount), q d r2.2.1 / (2 * G.ecount)])]
            bands := [[r0.1, r0.2.1], [r1.1, r1.2.1], [r2.1, r2.2.1]]
            vlines := [(r0.2.1, q a r0.2.1 / (2 * G.ecount) / 0.8), (r1.2.1, q c r1.2.1 / (2 * G.ecount) / 0.8)] }) : Option _)
      | _ => (some (.error .indexError) : Option _)) := by
  show (plotRightPanel env q G [⟨g₀, a⟩, ⟨g₁, b⟩, ⟨g₂, c⟩, ⟨g₃, d⟩] : Run RightPanel) = (ExceptT.mk _ : Run RightPanel)
  replace h : champ2D env G [a, b, c, d] plotLo plotHi false = (ExceptT.mk (some (.ok ranges)) : Run _) := h
  unfold plotRightPanel
  have key : ∀ (x : Run (List (ℝ × ℝ × List Nat))) (f : List (ℝ × ℝ × List Nat) → Run RightPanel),
      x = (ExceptT.mk (some (.ok ranges)) : Run _) → (x >>= f) = f ranges := by
    rintro x f rfl; rfl
  refine (key _ _ h).trans ?_
  rcases ranges with _ | ⟨r0, _ | ⟨r1, _ | ⟨r2, rs⟩⟩⟩ <;> rfl

/-- **C107.** If the partitions sampled at 0.5, 1.5 and 2.0 are each strictly the best of the four there, and the one sampled at 1.0 is
nowhere in the window strictly the best, the right panel is drawn, its three bands tile the window, every point of every segment is on
the upper envelope of the four lines, every resolution of the window is on a segment, and the two vertical lines (heights as fractions of
the axis `[0, 0.8]`) end on the envelope where one segment meets the next. -/
theorem c107_right (he : ExactEnv env) (hG : G.WF) (hd' : G.directed = false) (hm : 0 < G.ecount) (hq : ModularityQuality G q)
    (hlen : ∀ x ∈ [a, b, c, d], x.length = G.vcount) (hn : [a, b, c, d].Nodup)
    (ha : StrictlyBestAt G [a, b, c, d] 0.5 a) (hc : StrictlyBestAt G [a, b, c, d] 1.5 c) (hd : StrictlyBestAt G [a, b, c, d] 2.0 d)
    (hb : ∀ γ : ℝ, 0.25 ≤ γ → γ ≤ 2.25 → ¬ StrictlyBestAt G [a, b, c, d] γ b) (g₀ g₁ g₂ g₃ : ℝ) :
    ∃ panel, plotRightPanel env q G [⟨g₀, a⟩, ⟨g₁, b⟩, ⟨g₂, c⟩, ⟨g₃, d⟩] = (some (.ok panel) : Option _) ∧
      (∃ u v : ℝ, 0.5 < u ∧ u < 1.5 ∧ 1.5 < v ∧ v < 2.0 ∧ panel.bands = [[0.25, u], [u, v], [v, 2.25]] ∧
        panel.vlines.map Prod.fst = [u, v]) ∧
      (∀ s ∈ panel.segments, ∀ x y, OnSegment s x y → OnEnvelope G [a, b, c, d] x y) ∧
      (∀ γ : ℝ, 0.25 ≤ γ → γ ≤ 2.25 → ∃ s ∈ panel.segments, ∃ y, OnSegment s γ y) ∧
      (∀ l ∈ panel.vlines, OnEnvelope G [a, b, c, d] l.1 (0.8 * l.2)) := by
  obtain ⟨ranges, h⟩ := c17_returns he hG hd' hm hlen (by simp) (show plotLo < plotHi by unfold plotLo plotHi; norm_num) false
  have hs := he.toSoundEnv
  obtain ⟨u, v, rfl, h1, h2, h3, h4⟩ := ranges_three hs hG hlen h hn ha hc hd hb
  have hcor := c17_ranges_correct hs hG hlen h
  have env1 : ∀ r ∈ [(plotLo, u, a), (u, v, c), (v, plotHi, d)], ∀ γ, r.1 ≤ γ → γ ≤ r.2.1 →
      OnEnvelope G [a, b, c, d] γ (q r.2.2 γ / (2 * G.ecount)) := by
    intro r hr γ g1 g2
    obtain ⟨-, -, -, hmem, hiff⟩ := hcor r hr
    rw [hq _ _ (hlen _ hmem)]
    refine ⟨⟨_, hmem, rfl⟩, fun c' hc' => ?_⟩
    have := ((hiff γ).1 ⟨g1, g2⟩).2 c' hc'
    gcongr
  have seg : ∀ r ∈ [(plotLo, u, a), (u, v, c), (v, plotHi, d)], ∀ x y,
      OnSegment ([r.1, r.2.1], [q r.2.2 r.1 / (2 * G.ecount), q r.2.2 r.2.1 / (2 * G.ecount)]) x y →
      OnEnvelope G [a, b, c, d] x y := by
    rintro r hr x y ⟨x0, x1, y0, y1, t, e, t0, t1, rfl, rfl⟩
    simp only [Prod.mk.injEq, List.cons.injEq, and_true] at e
    obtain ⟨⟨rfl, rfl⟩, rfl, rfl⟩ := e
    have hc1 := hcor r hr
    have hle := hc1.2.1.le
    have := env1 r hr (r.1 + t * (r.2.1 - r.1)) (by nlinarith) (by nlinarith)
    have hl := hlen _ hc1.2.2.2.1
    rw [hq _ _ hl, hq _ _ hl]
    rw [hq _ _ hl] at this
    convert this using 1
    simp only [modularity_affine]
    ring
  have cover : ∀ (x0 x1 y0 y1 γ : ℝ), x0 < x1 → x0 ≤ γ → γ ≤ x1 → ∃ y, OnSegment ([x0, x1], [y0, y1]) γ y := by
    intro x0 x1 y0 y1 γ hlt g0 g1
    refine ⟨_, x0, x1, y0, y1, (γ - x0) / (x1 - x0), rfl, div_nonneg (by linarith) (by linarith), ?_, ?_, rfl⟩
    · rw [div_le_one (by linarith)]; linarith
    · rw [div_mul_cancel₀ _ (by linarith : x1 - x0 ≠ 0)]; ring
  refine ⟨_, rightPanel_run h, ⟨u, v, h1, h2, h3, h4, rfl, rfl⟩, ?_, ?_, ?_⟩
  · intro s hs x y hxy
    simp only [List.mem_cons, List.not_mem_nil, or_false] at hs
    rcases hs with rfl | rfl | rfl
    · exact seg (plotLo, u, a) (by simp) x y hxy
    · exact seg (u, v, c) (by simp) x y hxy
    · exact seg (v, plotHi, d) (by simp) x y hxy
  · intro γ g0 g1
    by_cases e1 : γ ≤ u
    · exact ⟨_, List.mem_cons_self, cover _ _ _ _ _ (hcor (plotLo, u, a) (by simp)).2.1 g0 e1⟩
    by_cases e2 : γ ≤ v
    · exact ⟨_, List.mem_cons_of_mem _ List.mem_cons_self, cover _ _ _ _ _ (hcor (u, v, c) (by simp)).2.1 (not_le.1 e1).le e2⟩
    · exact ⟨_, List.mem_cons_of_mem _ (List.mem_cons_of_mem _ List.mem_cons_self),
        cover _ _ _ _ _ (hcor (v, plotHi, d) (by simp)).2.1 (not_le.1 e2).le g1⟩
  · intro l hl
    simp only [List.mem_cons, List.not_mem_nil, or_false] at hl
    rcases hl with rfl | rfl
    · have := env1 (plotLo, u, a) (by simp) u (hcor (plotLo, u, a) (by simp)).2.1.le (le_refl _)
      convert this using 1
      dsimp only
      ring
    · have := env1 (u, v, c) (by simp) v (hcor (u, v, c) (by simp)).2.1.le (le_refl _)
      convert this using 1
      dsimp only
      ring

/-- **C107 (limit).** The script assumes that the partition sampled at 1.0 is nowhere optimal.  If instead each of the four is strictly the
best at its own resolution, the panel is drawn without complaint and is wrong: a segment passes strictly below the envelope at
`gamma = 1.0`, and the resolutions from 2.0 on are on no segment. -/
theorem c107_all_optimal_wrong (he : ExactEnv env) (hG : G.WF) (hd' : G.directed = false) (hm : 0 < G.ecount) (hq : ModularityQuality G q)
    (hlen : ∀ x ∈ [a, b, c, d], x.length = G.vcount) (hn : [a, b, c, d].Nodup)
    (ha : StrictlyBestAt G [a, b, c, d] 0.5 a) (hb : StrictlyBestAt G [a, b, c, d] 1.0 b)
    (hc : StrictlyBestAt G [a, b, c, d] 1.5 c) (hd : StrictlyBestAt G [a, b, c, d] 2.0 d) (g₀ g₁ g₂ g₃ : ℝ) :
    ∃ panel, plotRightPanel env q G [⟨g₀, a⟩, ⟨g₁, b⟩, ⟨g₂, c⟩, ⟨g₃, d⟩] = (some (.ok panel) : Option _) ∧
      (∃ s ∈ panel.segments, ∃ y, OnSegment s 1.0 y ∧ y < modularity G 1.0 b / (2 * G.ecount)) ∧
      ∀ γ : ℝ, 2.0 ≤ γ → ∀ s ∈ panel.segments, ∀ y, ¬ OnSegment s γ y := by
  obtain ⟨ranges, h⟩ := c17_returns he hG hd' hm hlen (by simp) (show plotLo < plotHi by unfold plotLo plotHi; norm_num) false
  have hs := he.toSoundEnv
  obtain ⟨r0, r1, r2, r3, rfl, h1, h2, h3⟩ := ranges_four hs hG hlen h hn ha hb hc hd
  have hcor := c17_ranges_correct hs hG hlen h
  obtain ⟨-, -, t3, -⟩ := c19_sorted_tiling hs hG hlen (by simp) h
  simp only [List.isChain_cons_cons, List.isChain_singleton, and_true] at t3
  have l0 := (hcor r0 (by simp)).2.1
  have l1 := (hcor r1 (by simp)).2.1
  have l2 := (hcor r2 (by simp)).2.1
  have hne : b ≠ c := by
    simp only [List.nodup_cons, List.mem_cons, List.not_mem_nil, or_false, not_or] at hn
    tauto
  refine ⟨_, rightPanel_run h, ⟨_, List.mem_cons_of_mem _ List.mem_cons_self, modularity G 1.0 c / (2 * G.ecount), ?_, ?_⟩, ?_⟩
  · refine ⟨_, _, _, _, (1.0 - r1.1) / (r1.2.1 - r1.1), rfl, div_nonneg (by linarith) (by linarith), ?_, ?_, ?_⟩
    · rw [div_le_one (by linarith)]; linarith
    · rw [div_mul_cancel₀ _ (by linarith : r1.2.1 - r1.1 ≠ 0)]; ring
    · have hl := hlen c (by simp)
      have hz : r1.2.1 - r1.1 ≠ 0 := by linarith
      have hm' : (G.ecount : ℝ) ≠ 0 := by exact_mod_cast hm.ne'
      rw [hq _ _ hl, hq _ _ hl]
      simp only [modularity_affine]
      generalize (1.0 : ℝ) = g
      field_simp
      ring
  · have := hb.2 c (by simp) hne.symm
    have hm' : (0 : ℝ) < G.ecount := by exact_mod_cast hm
    gcongr
  · rintro γ hγ s hs y ⟨x0, x1, y0, y1, t, e, e0, e1, rfl, -⟩
    have key : ∀ w z : ℝ, w < z → z < 2.0 → w + t * (z - w) < 2.0 := by
      intro w z hwz hz2
      have : t * (z - w) ≤ 1 * (z - w) := mul_le_mul_of_nonneg_right e1 (by linarith)
      linarith
    simp only [List.mem_cons, List.not_mem_nil, or_false] at hs
    rcases hs with rfl | rfl | rfl <;> simp only [Prod.mk.injEq, List.cons.injEq, and_true] at e <;>
      obtain ⟨⟨rfl, rfl⟩, -, -⟩ := e
    · have := key _ _ l0 (by linarith [t3.1, t3.2.1])
      linarith
    · have := key _ _ l1 (by linarith [t3.1, t3.2.1])
      linarith
    · have := key _ _ l2 h3
      linarith

/-- **C107.** With fewer than three ranges of optimality the right panel raises `IndexError`. -/
theorem c107_too_few {ranges : List (ℝ × ℝ × List Nat)}
    (h : champ2D env G [a, b, c, d] 0.25 2.25 false = (some (.ok ranges) : Option _)) (hr : ranges.length < 3) (g₀ g₁ g₂ g₃ : ℝ) :
    plotRightPanel env q G [⟨g₀, a⟩, ⟨g₁, b⟩, ⟨g₂, c⟩, ⟨g₃, d⟩] = (some (.error .indexError) : Option _) := by
  rw [rightPanel_run h]
  rcases ranges with _ | ⟨r0, _ | ⟨r1, _ | ⟨r2, rs⟩⟩⟩
  · rfl
  · rfl
  · rfl
  · simp at hr; omega

/-- **C107.** Left and centre panel, for the partitions `sample_partitions` returns: point `i` is at the resolution partition `i` was made
with and at its modularity there divided by `2m`, and it is on the line the centre panel draws for that partition: all ten points of
that line, and the scattered one, are on one straight line, which starts at 0.25 and ends at 2.25. -/
theorem c107_left_center (hq : ModularityQuality G q) {find : ℝ → Nat → List Nat} {runs : Nat} {parts : List LouvainPart}
    (hf : ∀ γ k, (find γ k).length = G.vcount) (h : samplePartitions q find runs = .ok parts) :
    (scatterPanel q G parts).1 = [0.5, 1.0, 1.5, 2.0] ∧
    List.Forall₂ (fun (p : LouvainPart) (xy : ℝ × ℝ) => xy = (p.res, modularity G p.res p.mem / (2 * G.ecount))) parts
      ((scatterPanel q G parts).1.zip (scatterPanel q G parts).2) ∧
    List.Forall₂ (fun (p : LouvainPart) (l : List ℝ × List ℝ) => l.1.length = 10 ∧ l.1.head? = some 0.25 ∧ l.1.getLast? = some 2.25 ∧
      l.2.length = 10 ∧ (∀ xy ∈ l.1.zip l.2, xy.2 = modularity G xy.1 p.mem / (2 * G.ecount)) ∧
      ∃ s t : ℝ, ∀ x, modularity G x p.mem / (2 * G.ecount) = s + t * x) parts (centerLines q G parts) := by
  obtain ⟨a, b, c, d, -, -, -, -, rfl, -⟩ := c107_sample h
  refine ⟨rfl, ?_, ?_⟩
  · simp only [scatterPanel, sampleGammas, List.map_cons, List.map_nil, List.zip_cons_cons, List.zip_nil_right,
      hq _ _ (hf _ _), List.forall₂_cons, List.forall₂_nil_right_iff, and_true]
  · unfold centerLines
    rw [List.forall₂_map_right_iff, List.forall₂_same]
    intro p hp
    have hl : p.mem.length = G.vcount := by
      simp only [List.mem_cons, List.not_mem_nil, or_false] at hp
      rcases hp with rfl | rfl | rfl | rfl <;> exact hf _ _
    refine ⟨by simp [plotXs, linspace], ?_, ?_, by simp [plotXs, linspace], ?_, ?_⟩
    · simp only [plotXs, linspace, plotLo, plotHi, List.range_succ, List.range_zero, List.nil_append, List.map_append, List.map_cons,
        List.map_nil, List.cons_append, List.head?_cons, Option.some.injEq]
      norm_num
    · simp only [plotXs, linspace, plotLo, plotHi, List.range_succ, List.range_zero, List.nil_append, List.map_append, List.map_cons,
        List.map_nil, List.cons_append, List.getLast?_cons_cons, List.getLast?_singleton, Option.some.injEq]
      norm_num
    · intro xy hxy
      dsimp only at hxy
      rw [List.zip_map_right, List.mem_map] at hxy
      obtain ⟨z, hz, rfl⟩ := hxy
      have : z.1 = z.2 := by
        rw [List.zip_eq_zipWith, List.zipWith_self] at hz
        obtain ⟨w, -, rfl⟩ := List.mem_map.1 hz
        rfl
      simp only [Prod.map_fst, Prod.map_snd, id, hq _ _ hl, this]
    · refine ⟨withinAdj G p.mem / (2 * G.ecount), - withinNull G p.mem / (2 * G.ecount), fun x => ?_⟩
      rw [modularity_affine]
      ring

/-! ### Witnesses -/

/-- A path. -/
def pathGraph (n : Nat) : Graph ℝ := ⟨n, false, (List.range (n - 1)).map fun i => (i, i + 1), none⟩

theorem modularity_by_nat (G : Graph ℝ) (γ : ℝ) (c : List Nat) (A P T : Nat)
    (hA : (∑ i ∈ Finset.range G.vcount, ∑ j ∈ Finset.range G.vcount, if c[i]? = c[j]? then adj G i j else 0) = A)
    (hP : (∑ i ∈ Finset.range G.vcount, ∑ j ∈ Finset.range G.vcount, if c[i]? = c[j]? then colSum G i * rowSum G j else 0) = P)
    (hT : total G = T) : modularity G γ c = A - γ * (P / T) := by
  rw [modularity_affine]
  have e1 : withinAdj G c = (A : ℝ) := by
    rw [← hA]; unfold withinAdj; push_cast; rfl
  have e2 : withinNull G c = (P : ℝ) / T := by
    rw [← hP, ← hT]; unfold withinNull; push_cast
    rw [Finset.sum_div]
    refine Finset.sum_congr rfl fun i _ => ?_
    rw [Finset.sum_div]
    refine Finset.sum_congr rfl fun j _ => ?_
    split_ifs <;> simp
  rw [e1, e2]

theorem p4a (γ : ℝ) : modularity (pathGraph 4) γ [0, 0, 0, 0] = 6 - γ * (36 / 6) := by
  rw [modularity_by_nat (pathGraph 4) γ [0, 0, 0, 0] 6 36 6 (by decide +kernel) (by decide +kernel) (by decide +kernel)]; norm_num
theorem p4b (γ : ℝ) : modularity (pathGraph 4) γ [0, 1, 0, 1] = 0 - γ * (18 / 6) := by
  rw [modularity_by_nat (pathGraph 4) γ [0, 1, 0, 1] 0 18 6 (by decide +kernel) (by decide +kernel) (by decide +kernel)]; norm_num
theorem p4c (γ : ℝ) : modularity (pathGraph 4) γ [0, 0, 0, 1] = 4 - γ * (26 / 6) := by
  rw [modularity_by_nat (pathGraph 4) γ [0, 0, 0, 1] 4 26 6 (by decide +kernel) (by decide +kernel) (by decide +kernel)]; norm_num
theorem p4d (γ : ℝ) : modularity (pathGraph 4) γ [0, 1, 2, 0] = 0 - γ * (12 / 6) := by
  rw [modularity_by_nat (pathGraph 4) γ [0, 1, 2, 0] 0 12 6 (by decide +kernel) (by decide +kernel) (by decide +kernel)]; norm_num

/-- `c107_right` applies to a path on four vertices. -/
example : ∃ panel, plotRightPanel exactEnv (fun c γ => modularity (pathGraph 4) γ c) (pathGraph 4)
    [⟨0.5, [0, 0, 0, 0]⟩, ⟨1.0, [0, 1, 0, 1]⟩, ⟨1.5, [0, 0, 0, 1]⟩, ⟨2.0, [0, 1, 2, 0]⟩] = (some (.ok panel) : Option _) := by
  obtain ⟨panel, h, -⟩ := c107_right (a := [0, 0, 0, 0]) (b := [0, 1, 0, 1]) (c := [0, 0, 0, 1]) (d := [0, 1, 2, 0])
    exactEnv_exact (G := pathGraph 4) ⟨by decide +kernel, by intro ws h; cases h⟩ rfl (by decide +kernel)
    (q := fun c γ => modularity (pathGraph 4) γ c) (fun _ _ _ => rfl) (by decide +kernel) (by decide +kernel)
    ⟨by simp, by simp [p4a, p4b, p4c, p4d]; norm_num⟩ ⟨by simp, by simp [p4a, p4b, p4c, p4d]; norm_num⟩
    ⟨by simp, by simp [p4a, p4b, p4c, p4d]; norm_num⟩
    (by
      intro γ h0 _ hb
      have := hb.2 [0, 1, 2, 0] (by simp) (by simp)
      rw [p4b, p4d] at this
      norm_num at *
      linarith) 0.5 1.0 1.5 2.0
  exact ⟨panel, h⟩

theorem p6a (γ : ℝ) : modularity (pathGraph 6) γ [0, 0, 0, 0, 0, 0] = 10 - γ * (100 / 10) := by
  rw [modularity_by_nat (pathGraph 6) γ [0, 0, 0, 0, 0, 0] 10 100 10 (by decide +kernel) (by decide +kernel) (by decide +kernel)]; norm_num
theorem p6b (γ : ℝ) : modularity (pathGraph 6) γ [0, 0, 0, 0, 1, 2] = 6 - γ * (54 / 10) := by
  rw [modularity_by_nat (pathGraph 6) γ [0, 0, 0, 0, 1, 2] 6 54 10 (by decide +kernel) (by decide +kernel) (by decide +kernel)]; norm_num
theorem p6c (γ : ℝ) : modularity (pathGraph 6) γ [0, 0, 0, 1, 2, 1] = 4 - γ * (38 / 10) := by
  rw [modularity_by_nat (pathGraph 6) γ [0, 0, 0, 1, 2, 1] 4 38 10 (by decide +kernel) (by decide +kernel) (by decide +kernel)]; norm_num
theorem p6d (γ : ℝ) : modularity (pathGraph 6) γ [0, 0, 1, 2, 3, 1] = 2 - γ * (26 / 10) := by
  rw [modularity_by_nat (pathGraph 6) γ [0, 0, 1, 2, 3, 1] 2 26 10 (by decide +kernel) (by decide +kernel) (by decide +kernel)]; norm_num

/-- `c107_all_optimal_wrong` applies to a path on six vertices. -/
example : ∃ panel, plotRightPanel exactEnv (fun c γ => modularity (pathGraph 6) γ c) (pathGraph 6)
    [⟨0.5, [0, 0, 0, 0, 0, 0]⟩, ⟨1.0, [0, 0, 0, 0, 1, 2]⟩, ⟨1.5, [0, 0, 0, 1, 2, 1]⟩, ⟨2.0, [0, 0, 1, 2, 3, 1]⟩] =
      (some (.ok panel) : Option _) ∧ ∀ s ∈ panel.segments, ∀ y, ¬ OnSegment s 2.1 y := by
  obtain ⟨panel, h, -, h2⟩ := c107_all_optimal_wrong (a := [0, 0, 0, 0, 0, 0]) (b := [0, 0, 0, 0, 1, 2]) (c := [0, 0, 0, 1, 2, 1])
    (d := [0, 0, 1, 2, 3, 1]) exactEnv_exact (G := pathGraph 6) ⟨by decide +kernel, by intro ws h; cases h⟩ rfl (by decide +kernel)
    (q := fun c γ => modularity (pathGraph 6) γ c) (fun _ _ _ => rfl) (by decide +kernel) (by decide +kernel)
    ⟨by simp, by simp [p6a, p6b, p6c, p6d]; norm_num⟩ ⟨by simp, by simp [p6a, p6b, p6c, p6d]; norm_num⟩
    ⟨by simp, by simp [p6a, p6b, p6c, p6d]; norm_num⟩ ⟨by simp, by simp [p6a, p6b, p6c, p6d]; norm_num⟩ 0.5 1.0 1.5 2.0
  exact ⟨panel, h, fun s hs => h2 2.1 (by norm_num) s hs⟩

end Verif.Props
