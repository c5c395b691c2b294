import Verif.Props.Mesh
import Verif.Proof.Nested

/-!
# C124: the capacity of a mesh is the number of its columns
-/

namespace PT
open Spec

/-- The number of ports of a network all of whose components are connected. -/
theorem Made.size {P : Part → Prop} {modules : List (Str × Dev)} {cs : List Conn} {D : List (Str × ℤ)} {d : Dev}
    (h : Made P modules cs D d) (hnd : (modules.map Prod.fst).Nodup) (hm : ∀ q ∈ modules, ∃ c ∈ cs, q.1 ∈ c.names) :
    d.comp.n = (modules.map fun q => q.2.comp.n).sum := by
  obtain ⟨l, hl, hf, hn, -⟩ := h.waves
  rw [hn]
  refine (List.Perm.map _ ?_).sum_eq
  have hlnd : (l.map Prod.fst).Nodup := hf ▸ firstMentions_nodup cs
  refine (List.perm_ext_iff_of_nodup (List.Nodup.of_map _ hlnd) (List.Nodup.of_map _ hnd)).mpr fun q => ⟨fun hq => ?_, fun hq => ?_⟩
  · exact dictGet_mem (hl q hq)
  · have : q.1 ∈ l.map Prod.fst := by
      rw [hf, mem_firstMentions]
      exact hm q hq
    obtain ⟨p, hp, he⟩ := List.mem_map.mp this
    have h1 := hl p hp
    have h2 := dictGet_of_mem hnd hq
    rw [he, h2] at h1
    have : p = q := Prod.ext he (Option.some.inj h1).symm
    rwa [← this]

theorem leaf_size {P : Part → Prop} {parts : List (Str × Part)} {cs : List Conn} {D : List (Str × ℤ)} {d : Dev}
    (h : Made P (parts.map fun q => (q.1, q.2.dev)) cs D d) (hnd : (parts.map Prod.fst).Nodup)
    (hm : ∀ q ∈ parts, ∃ c ∈ cs, q.1 ∈ c.names) : d.comp.n = (parts.map fun q => q.2.n).sum := by
  rw [h.size (by rw [List.map_map]; exact hnd) (by
    intro q hq
    obtain ⟨p, hp, rfl⟩ := List.mem_map.mp hq
    exact hm p hp), List.map_map]
  congr 1
  apply List.map_congr_left
  intro q _
  show q.2.comp.n = q.2.n
  cases q.2 <;> rfl

theorem sum_four (l : List ℕ) (f : ℕ → Part) (n : ℕ) (h : ∀ i ∈ l, (f i).n = n) : (l.map fun i => (f i).n).sum = l.length * n := by
  induction l with
  | nil => simp
  | cons a l ih =>
    rw [List.map_cons, List.sum_cons, ih fun i hi => h i (by simp [hi]), h a (by simp), List.length_cons]
    ring

section
variable {N : ℕ} {mz wg : ℕ → Part} (hm : ∀ i, (mz i).n = 4) (hw : ∀ i, (wg i).n = 2)

theorem mzi_wg (i j : ℕ) : mziN i ≠ wgN j := ne_of_head (by simp [head_mzi, head_wg])

include hm hw in
theorem reckLayer_size (hN : 2 ≤ N) :
    ∃ d, reckLayer N mz (wg 0) = .ok d ∧ LayerOK (fun _ => True) N d ∧ d.comp.n = 4 * (N - 1) + 2 := by
  obtain ⟨d', hd', h⟩ := reckLayer_made (P := fun _ => True) (mz := mz) (wg := wg 0) hN (by
    intro q hq
    simp only [reckLayerParts, List.mem_append, List.mem_map, List.mem_singleton] at hq
    rcases hq with ⟨i, -, rfl⟩ | rfl
    · exact ⟨trivial, hm i⟩
    · exact ⟨trivial, hw 0⟩)
  refine ⟨d', hd', ⟨h.made, by rw [h.len, ioList_length]⟩, ?_⟩
  rw [leaf_size h, reckLayerParts, List.map_append, List.map_map, List.sum_append]
  · have := sum_four (List.range (N - 1)) mz 4 (fun i _ => hm i)
    simp only [Function.comp_def]
    rw [this, List.length_range]
    simp [hw]
    ring
  · simp only [reckLayerParts, List.map_append, List.map_map, Function.comp_def, List.map_cons, List.map_nil]
    rw [List.nodup_append']
    refine ⟨lbl_nodup _ _, by simp, ?_⟩
    intro x h1 h2
    simp only [List.mem_map, List.mem_singleton] at h1 h2
    obtain ⟨i, -, rfl⟩ := h1
    exact ne_of_head (by simp [head_mzi]) h2
  · intro q hq
    simp only [reckLayerParts, List.mem_append, List.mem_map, List.mem_singleton, List.mem_range] at hq
    rcases hq with ⟨i, hi, rfl⟩ | rfl
    · exact ⟨Conn.outer (mziN i) (0 : ℕ) i, by simp [reckLayerCs]; omega, by simp [Conn.names]⟩
    · exact ⟨Conn.outer ['w', 'g'] (0 : ℕ) ((N - 2 + 1 : ℕ) : ℤ), by simp [reckLayerCs], by simp [Conn.names]⟩

include hw in
theorem phase_size (hN : 0 < N) :
    ∃ d, phaseArray N wg = .ok d ∧ LayerOK (fun _ => True) N d ∧ d.comp.n = 2 * N := by
  obtain ⟨d', hd', h⟩ := phase_made (P := fun _ => True) (wg := wg) hN (by
    intro q hq
    simp only [phaseParts, List.mem_map] at hq
    obtain ⟨i, -, rfl⟩ := hq
    exact ⟨trivial, hw i⟩)
  refine ⟨d', hd', ⟨h.made, by rw [h.len, ioList_length]⟩, ?_⟩
  rw [leaf_size h, phaseParts, List.map_map]
  · have := sum_four (List.range N) wg 2 (fun i _ => hw i)
    simp only [Function.comp_def]
    rw [this, List.length_range]
    ring
  · simp only [phaseParts, List.map_map, Function.comp_def]
    exact lbl_nodup _ _
  · intro q hq
    simp only [phaseParts, List.mem_map, List.mem_range] at hq
    obtain ⟨i, hi, rfl⟩ := hq
    exact ⟨Conn.outer (wgN i) (0 : ℕ) i, by simp only [phaseCs, List.mem_flatMap, List.mem_range]; exact ⟨i, hi, by simp⟩,
      by simp [Conn.names]⟩

include hm hw in
theorem mixing_size (hN : 0 < N) :
    ∃ d, mixingArray N mz wg = .ok d ∧ LayerOK (fun _ => True) N d ∧ d.comp.n = 4 * N := by
  obtain ⟨d', hd', h⟩ := mixing_made (P := fun _ => True) (mz := mz) (wg := wg) hN (by
    intro q hq
    simp only [mixingParts, List.mem_append, List.mem_map, List.mem_ite_nil_right, List.mem_singleton] at hq
    rcases hq with (⟨i, -, rfl⟩ | ⟨i, -, rfl⟩) | ⟨-, rfl⟩
    · exact ⟨trivial, hw i⟩
    · exact ⟨trivial, hm i⟩
    · exact ⟨trivial, hw N⟩)
  refine ⟨d', hd', ⟨h.made, by rw [h.len, ioList_length]⟩, ?_⟩
  rw [leaf_size h, mixingParts]
  · have h1 := sum_four (List.range N) wg 2 (fun i _ => hw i)
    have h2 := sum_four (List.range (N / 2)) mz 4 (fun i _ => hm i)
    simp only [List.map_append, List.map_map, List.sum_append, Function.comp_def]
    rw [h1, h2, List.length_range, List.length_range]
    split <;> simp [hw] <;> omega
  · simp only [mixingParts, List.map_append, List.map_map, Function.comp_def]
    rw [List.nodup_append', List.nodup_append']
    refine ⟨⟨lbl_nodup _ _, lbl_nodup _ _, ?_⟩, by split <;> simp, ?_⟩
    · intro x h1 h2
      simp only [List.mem_map] at h1 h2
      obtain ⟨i, -, rfl⟩ := h1
      obtain ⟨j, -, h⟩ := h2
      exact mzi_wg j i h
    · intro x h1 h2
      have h2 : x = ['w', 'g', '_'] := by
        split at h2
        · simpa using h2
        · simp at h2
      subst h2
      simp only [List.mem_append, List.mem_map] at h1
      rcases h1 with ⟨i, -, h⟩ | ⟨i, -, h⟩
      · exact wgN_ne i h
      · exact ne_of_head (by simp [head_mzi]) h
  · intro q hq
    simp only [mixingParts, List.mem_append, List.mem_map, List.mem_ite_nil_right, List.mem_singleton, List.mem_range] at hq
    rcases hq with (⟨i, hi, rfl⟩ | ⟨i, hi, rfl⟩) | ⟨ho, rfl⟩
    · exact ⟨Conn.outer (wgN i) (1 : ℕ) ((N + i : ℕ) : ℤ), by
        simp only [mixingCs, List.mem_append, List.mem_map, List.mem_range]; exact .inr ⟨i, hi, rfl⟩, by simp [Conn.names]⟩
    · exact ⟨Conn.outer (mziN i) (0 : ℕ) ((2 * i : ℕ) : ℤ), by
        simp only [mixingCs, List.mem_append, List.mem_flatMap, List.mem_range]
        exact .inl (.inl (.inr ⟨i, hi, by simp⟩)), by simp [Conn.names]⟩
    · exact ⟨Conn.outer ['w', 'g', '_'] (0 : ℕ) ((N - 1 : ℕ) : ℤ), by
        simp only [mixingCs, List.mem_append, if_pos ho]
        exact .inl (.inr (by simp)), by simp [Conn.names]⟩

theorem wg_nodup : [wgN 0, wgN 1].Nodup := by decide +kernel

include hm hw in
theorem cap2_size (hN : 2 ≤ N) :
    ∃ d, cap2 N mz (wg 0) = .ok d ∧ LayerOK (fun _ => True) N d ∧ d.comp.n = 4 * N := by
  obtain ⟨d', hd', h⟩ := cap2_made (P := fun _ => True) (mz := mz) (wg := wg 0) hN (by
    intro q hq
    simp only [cap2Parts, List.mem_append, List.mem_map, List.mem_cons, List.not_mem_nil, or_false] at hq
    rcases hq with ⟨i, -, rfl⟩ | rfl | rfl
    · exact ⟨trivial, hm i⟩
    · exact ⟨trivial, hw 0⟩
    · exact ⟨trivial, hw 0⟩)
  refine ⟨d', hd', ⟨h.made, by rw [h.len, ioList_length]⟩, ?_⟩
  rw [leaf_size h, cap2Parts]
  · have h2 := sum_four (List.range (N - 1)) mz 4 (fun i _ => hm i)
    simp only [List.map_append, List.map_map, List.sum_append, Function.comp_def]
    rw [h2, List.length_range]
    simp [hw]
    omega
  · simp only [cap2Parts, List.map_append, List.map_map, Function.comp_def]
    rw [List.nodup_append']
    refine ⟨lbl_nodup _ _, wg_nodup, ?_⟩
    intro x h1 h2
    simp only [List.mem_map, List.map_cons, List.map_nil, List.mem_cons, List.not_mem_nil, or_false] at h1 h2
    obtain ⟨i, -, rfl⟩ := h1
    rcases h2 with h | h <;> exact mzi_wg _ _ h
  · intro q hq
    simp only [cap2Parts, List.mem_append, List.mem_map, List.mem_cons, List.not_mem_nil, or_false, List.mem_range] at hq
    rcases hq with ⟨i, hi, rfl⟩ | rfl | rfl
    · rcases Nat.mod_two_eq_zero_or_one i with hp | hp
      · exact ⟨Conn.outer (mziN i) (0 : ℕ) i, by
          simp only [cap2Cs, List.mem_append, List.mem_flatMap]
          exact .inl (.inl (.inl (.inl (.inr ⟨i, mem_range2.mpr (by omega), by simp⟩)))), by simp [Conn.names]⟩
      · refine ⟨Conn.outer (mziN i) (1 : ℕ) ((N + i : ℕ) : ℤ), ?_, by simp [Conn.names]⟩
        simp only [cap2Cs, List.mem_append, List.mem_flatMap]
        exact .inl (.inr ⟨i, mem_range2.mpr (by omega), by simp⟩)
    · exact ⟨_, by simp only [cap2Cs, List.append_assoc, List.cons_append]; exact List.mem_cons_self, by simp [Conn.names]⟩
    · rcases Nat.mod_two_eq_zero_or_one N with hp | hp
      · exact ⟨Conn.inner (mziN (N - 2)) (2 : ℕ) (wgN 1) (0 : ℕ), by
          simp only [cap2Cs, List.mem_append, if_neg (show ¬N % 2 = 1 by omega)]
          simp, by simp [Conn.names]⟩
      · exact ⟨Conn.inner (wgN 1) (1 : ℕ) (mziN (N - 2)) (3 : ℕ), by
          simp only [cap2Cs, List.mem_append, if_pos hp]
          simp, by simp [Conn.names]⟩

include hm hw in
theorem mixingRing_size (hN : 0 < N) (he : N % 2 = 0) :
    ∃ d, mixingRing N mz wg = .ok d ∧ LayerOK (fun _ => True) N d ∧ d.comp.n = 4 * N := by
  obtain ⟨d', hd', h⟩ := mixingRing_made (P := fun _ => True) (mz := mz) (wg := wg) hN he (by
    intro q hq
    simp only [mixingRingParts, List.mem_append, List.mem_map] at hq
    rcases hq with ⟨i, -, rfl⟩ | ⟨i, -, rfl⟩
    · exact ⟨trivial, hw i⟩
    · exact ⟨trivial, hm i⟩)
  refine ⟨d', hd', ⟨h.made, by rw [h.len, ioList_length]⟩, ?_⟩
  rw [leaf_size h, mixingRingParts]
  · have h1 := sum_four (List.range N) wg 2 (fun i _ => hw i)
    have h2 := sum_four (List.range (N / 2)) mz 4 (fun i _ => hm i)
    simp only [List.map_append, List.map_map, List.sum_append, Function.comp_def]
    rw [h1, h2, List.length_range, List.length_range]
    omega
  · simp only [mixingRingParts, List.map_append, List.map_map, Function.comp_def]
    rw [List.nodup_append']
    refine ⟨lbl_nodup _ _, lbl_nodup _ _, ?_⟩
    intro x h1 h2
    simp only [List.mem_map] at h1 h2
    obtain ⟨i, -, rfl⟩ := h1
    obtain ⟨j, -, h⟩ := h2
    exact mzi_wg j i h
  · intro q hq
    simp only [mixingRingParts, List.mem_append, List.mem_map, List.mem_range] at hq
    rcases hq with ⟨i, hi, rfl⟩ | ⟨i, hi, rfl⟩
    · exact ⟨Conn.outer (wgN i) (1 : ℕ) ((N + i : ℕ) : ℤ), by
        simp only [mixingRingCs, List.mem_append, List.mem_map, List.mem_range]; exact .inr ⟨i, hi, rfl⟩, by simp [Conn.names]⟩
    · exact ⟨Conn.outer (mziN i) (0 : ℕ) ((2 * i : ℕ) : ℤ), by
        simp only [mixingRingCs, List.mem_append, List.mem_flatMap, List.mem_range]
        exact .inl (.inr ⟨i, hi, by simp⟩), by simp [Conn.names]⟩

include hm hw in
theorem ringArray_size (hN : 0 < N) (he : N % 2 = 0) :
    ∃ d, ringArray N mz wg = .ok d ∧ LayerOK (fun _ => True) N d ∧ d.comp.n = 4 * N := by
  obtain ⟨d', hd', h⟩ := ringArray_made (P := fun _ => True) (mz := mz) (wg := wg) hN he (by
    intro q hq
    simp only [ringArrayParts, List.mem_append, List.mem_map] at hq
    rcases hq with ⟨i, -, rfl⟩ | ⟨i, -, rfl⟩
    · exact ⟨trivial, hw i⟩
    · exact ⟨trivial, hm i⟩)
  refine ⟨d', hd', ⟨h.made, by rw [h.len, ioList_length]⟩, ?_⟩
  rw [leaf_size h, ringArrayParts]
  · have h1 := sum_four (List.range 2) wg 2 (fun i _ => hw i)
    have h2 := sum_four (List.range (N - 1)) mz 4 (fun i _ => hm i)
    simp only [List.map_append, List.map_map, List.sum_append, Function.comp_def]
    rw [h1, h2, List.length_range, List.length_range]
    omega
  · simp only [ringArrayParts, List.map_append, List.map_map, Function.comp_def]
    rw [List.nodup_append']
    refine ⟨lbl_nodup _ _, lbl_nodup _ _, ?_⟩
    intro x h1 h2
    simp only [List.mem_map] at h1 h2
    obtain ⟨i, -, rfl⟩ := h1
    obtain ⟨j, -, h⟩ := h2
    exact mzi_wg j i h
  · intro q hq
    simp only [ringArrayParts, List.mem_append, List.mem_map, List.mem_range] at hq
    rcases hq with ⟨i, hi, rfl⟩ | ⟨i, hi, rfl⟩
    · have : i = 0 ∨ i = 1 := by omega
      rcases this with rfl | rfl
      · exact ⟨Conn.inner (wgN 0) (0 : ℕ) (mziN 0) (3 : ℕ), by simp [ringArrayCs], by simp [Conn.names]⟩
      · exact ⟨Conn.inner (wgN 1) (0 : ℕ) (mziN (N - 1 - 1)) (2 : ℕ), by simp [ringArrayCs], by simp [Conn.names]⟩
    · rcases Nat.mod_two_eq_zero_or_one i with hp | hp
      · exact ⟨Conn.outer (mziN i) (0 : ℕ) i, by
          simp only [ringArrayCs, List.mem_append, List.mem_flatMap]
          exact .inl (.inl (.inl (.inr ⟨i, mem_range2.mpr (by omega), by simp⟩))), by simp [Conn.names]⟩
      · exact ⟨Conn.outer (mziN i) (1 : ℕ) ((N + i : ℕ) : ℤ), by
          simp only [ringArrayCs, List.mem_append, List.mem_flatMap]
          exact .inl (.inr ⟨i, mem_range2.mpr (by omega), by simp⟩), by simp [Conn.names]⟩

end

/-- The number of ports of a chain of networks. -/
theorem chain_size {P : Part → Prop} {K : ℕ} {cnt base : ℕ → ℕ} {f : ℕ → Str} {devs : ℕ → Dev} {D : List (Str × ℤ)} {d : Dev}
    (h : Made P ((List.range (K + 1)).map fun i => (f i, devs i)) (chainCs K cnt base f) D d)
    (hf : ∀ i ≤ K, ∀ j ≤ K, f i = f j → i = j) (hK : 0 < K) (hc : ∀ i < K, 0 < cnt i) :
    d.comp.n = ∑ i ∈ Finset.range (K + 1), (devs i).comp.n := by
  rw [h.size, List.map_map]
  · exact (Finset.sum_range fun i => (devs i).comp.n).trans (by
      rw [← List.sum_ofFn, List.ofFn_eq_map, ← List.map_coe_finRange_eq_range, List.map_map]; rfl) |>.symm
  · rw [List.map_map]
    refine List.Nodup.map_on ?_ List.nodup_range
    intro i hi j hj h
    rw [List.mem_range] at hi hj
    exact hf i (by omega) j (by omega) h
  · intro q hq
    obtain ⟨i, hi, rfl⟩ := List.mem_map.mp hq
    rw [List.mem_range] at hi
    unfold chainCs
    simp only [List.mem_flatMap, List.mem_map, List.mem_range]
    rcases Nat.eq_or_lt_of_le (Nat.le_of_lt_succ hi) with rfl | h
    · obtain ⟨k, rfl⟩ : ∃ k, i = k + 1 := ⟨i - 1, by omega⟩
      exact ⟨_, ⟨k, Nat.lt_succ_self k, 0, hc k (Nat.lt_succ_self k), rfl⟩, by simp [Conn.names]⟩
    · exact ⟨_, ⟨i, h, 0, hc i h, rfl⟩, by simp [Conn.names]⟩

theorem layer_inj (i j : ℕ) (h : layerN i = layerN j) : i = j := by
  have := layer_names (max i j) i (le_max_left _ _)
  rw [h, layer_names (max i j) j (le_max_right _ _)] at this
  exact this.symm

/-- A chain of layers of `4 N` ports with any last layer. -/
theorem layers_size {N k : ℕ} (hN : 0 < N) (hk : 0 < k) {D : ℕ → Dev} {last : Dev} {m : ℕ}
    (hD : ∀ i < k, LayerOK (fun _ => True) N (D i) ∧ (D i).comp.n = 4 * N) (hl : LayerOK (fun _ => True) N last ∧ last.comp.n = m) :
    ∃ d, mkDev none (((List.range k).map fun i => (layerN i, D i)) ++ [(layerN k, last)]) (layersConns N k) = .ok d ∧
      d.comp.n = 4 * N * k + m := by
  have hdev : ∀ i ≤ k, LayerOK (fun _ => True) N (if i < k then D i else last) := by
    intro i hi
    split
    · exact (hD i (by assumption)).1
    · exact hl.1
  obtain ⟨d, hd, h⟩ := layers_made hN hk hdev
  refine ⟨d, ?_, ?_⟩
  · rw [← hd, if_neg (lt_irrefl k)]
    congr 2
    apply List.map_congr_left
    intro i hi
    rw [List.mem_range] at hi
    rw [if_pos hi]
  · rw [chain_size h (fun i _ j _ h => layer_inj i j h) hk (fun _ _ => hN), Finset.sum_range_succ, if_neg (lt_irrefl k), hl.2,
      Finset.sum_congr rfl (g := fun _ => 4 * N) (fun i hi => by
        rw [Finset.mem_range] at hi
        rw [if_pos hi, (hD i hi).2]), Finset.sum_const, Finset.card_range]
    simp
    ring

theorem layers_ok {f : ℕ → Except PyErr Dev} {D : ℕ → Dev} (k : ℕ) (h : ∀ i, f i = .ok (D i)) :
    mapE (fun i => (f i).map fun d => (layerN i, d)) (List.range k) = .ok ((List.range k).map fun i => (layerN i, D i)) := by
  have := mapE_map_ok (f := fun i => (f i).map fun d => (layerN i, d)) (g := id) (h := fun i => (layerN i, D i)) (List.range k) (by
    intro m _
    simp only [id, h m, Except.map])
  simpa using this

/-- C124. A Clements network of any width and capacity consists of `capacity` columns, each crossed by all `N` lines in
interferometers of two lines or waveguides of one, and a column of phase shifters. -/
theorem C124_clements (N capacity : ℕ) (hN : 2 ≤ N) (hc : 2 ≤ capacity) (mz wg : ℕ → ℕ → Part)
    (hm : ∀ m i, (mz m i).n = 4) (hw : ∀ m i, (wg m i).n = 2) :
    ∃ d, clements N capacity mz wg = .ok d ∧ d.comp.n = 2 * N * (capacity + 1) := by
  choose D hD hD' using fun m => cap2_size (hm m) (hw m) hN
  have hlast : ∃ last, clementsLast N capacity (mz (capacity / 2)) (wg (capacity / 2)) = .ok last ∧
      LayerOK (fun _ => True) N last ∧ last.comp.n = 2 * N * (capacity % 2 + 1) := by
    unfold clementsLast
    rcases Nat.mod_two_eq_zero_or_one capacity with h | h
    · rw [if_pos h, h]
      obtain ⟨d, h1, h2, h3⟩ := phase_size (N := N) (hw (capacity / 2)) (by omega)
      exact ⟨d, h1, h2, by rw [h3]; ring⟩
    · rw [if_neg (by omega), h]
      obtain ⟨d, h1, h2, h3⟩ := mixing_size (N := N) (hm (capacity / 2)) (hw (capacity / 2)) (by omega)
      exact ⟨d, h1, h2, by rw [h3]; ring⟩
  obtain ⟨last, hl, hl'⟩ := hlast
  obtain ⟨d, hd, hn⟩ := layers_size (k := capacity / 2) (by omega) (by omega) (fun i _ => hD' i) hl'
  refine ⟨d, ?_, ?_⟩
  · unfold clements
    rw [layers_ok _ hD, hl]
    exact hd
  · rw [hn]
    have e : capacity = 2 * (capacity / 2) + capacity % 2 := (Nat.div_add_mod _ _).symm
    conv_rhs => rw [e]
    ring

/-- C124. A ring network has `2 * (capacity // 2) + 1` such columns, … -/
theorem C124_ring (N capacity : ℕ) (hN : 0 < N) (he : N % 2 = 0) (hc : 2 ≤ capacity) (mz wg : ℕ → ℕ → Part)
    (hm : ∀ m i, (mz m i).n = 4) (hw : ∀ m i, (wg m i).n = 2) :
    ∃ d, ring N capacity mz wg = .ok d ∧ d.comp.n = 2 * N * (2 * (capacity / 2) + 1 + 1) := by
  choose D hD hD' using fun m => ringArray_size (hm m) (hw m) hN he
  obtain ⟨last, hl, hl'⟩ := mixingRing_size (hm (capacity / 2)) (hw (capacity / 2)) hN he
  obtain ⟨d, hd, hn⟩ := layers_size (k := capacity / 2) hN (by omega) (fun i _ => hD' i) hl'
  refine ⟨d, ?_, ?_⟩
  · unfold ring
    rw [if_neg (by omega), layers_ok _ hD, hl]
    exact hd
  · rw [hn]
    ring

/-- C124. … so the documented number for odd capacities: "number of consecutive MZI layers". -/
theorem C124_ring_partial (N capacity : ℕ) (hN : 0 < N) (he : N % 2 = 0) (hc : 2 ≤ capacity) (ho : capacity % 2 = 1)
    (mz wg : ℕ → ℕ → Part) (hm : ∀ m i, (mz m i).n = 4) (hw : ∀ m i, (wg m i).n = 2) :
    ∃ d, ring N capacity mz wg = .ok d ∧ d.comp.n = 2 * N * (capacity + 1) := by
  obtain ⟨d, hd, hn⟩ := C124_ring N capacity hN he hc mz wg hm hw
  exact ⟨d, hd, by rw [hn]; congr 2; omega⟩

/-- C124. The statement is false for even capacities: an even capacity gives the network of the next odd one. -/
theorem C124_violation : (∀ (N k : ℕ) (mz wg : ℕ → ℕ → Part), ring N (2 * k) mz wg = ring N (2 * k + 1) mz wg) ∧
    ¬∀ (N capacity : ℕ), 0 < N → N % 2 = 0 → 2 ≤ capacity → ∀ mz wg : ℕ → ℕ → Part, (∀ m i, (mz m i).n = 4) →
      (∀ m i, (wg m i).n = 2) → ∀ d, ring N capacity mz wg = .ok d → d.comp.n = 2 * N * (capacity + 1) := by
  refine ⟨fun N k mz wg => ?_, fun h => ?_⟩
  · unfold ring
    rw [show (2 * k + 1) / 2 = 2 * k / 2 by omega]
  · obtain ⟨d, hd, hn⟩ := C124_ring 4 2 (by omega) rfl le_rfl (fun _ _ => .coupler (1 / 2)) (fun _ _ => .waveguide 1 0 1 1 1 0)
      (fun _ _ => rfl) fun _ _ => rfl
    have := h 4 2 (by omega) rfl le_rfl _ _ (fun _ _ => rfl) (fun _ _ => rfl) d hd
    rw [hn] at this
    omega

/-- C124. A Reck network consists of `N (N - 1) / 2` interferometers and `N` phase shifters. -/
theorem C124_reck (N : ℕ) (hN : 2 ≤ N) (mz : ℕ → ℕ → Part) (wg : ℕ → Part) (hm : ∀ m i, FourPort (mz m i)) (hw : ∀ m, TwoPort (wg m)) :
    ∃ d, reck N mz wg = .ok d ∧ d.comp.n = 4 * (N * (N - 1) / 2) + 2 * N := by
  have h4 : ∀ m i, FourOf (fun _ => True) (mz m i) := fun m i => ⟨trivial, hm m i⟩
  have h2 : ∀ m, TwoOf (fun _ => True) (wg m) := fun m => ⟨trivial, hw m⟩
  obtain ⟨D, hD⟩ := reckLayer_exists (N := N) h4 h2
  obtain ⟨d, hd, h⟩ := reck_chain hN h4 h2 hD
  refine ⟨d, hd, ?_⟩
  rw [chain_size h (fun i hi j hj h => by rw [← reckIdx_name i hi, h, reckIdx_name j hj]) (by omega) (fun i hi => by omega),
    Finset.sum_range_succ]
  have hlast : (reckDevs N D wg (N - 1)).comp.n = 2 := by
    unfold reckDevs
    rw [if_neg (lt_irrefl _)]
    have := (hw (N - 1)).1
    show (wg (N - 1)).comp.n = 2
    rw [← this]
    cases wg (N - 1) <;> rfl
  have hlay : ∀ i ∈ Finset.range (N - 1), (reckDevs N D wg i).comp.n = 4 * (N - 1 - i) + 2 := by
    intro i hi
    rw [Finset.mem_range] at hi
    unfold reckDevs
    rw [if_pos hi]
    obtain ⟨d', h1, -, h3⟩ := reckLayer_size (N := N - i) (mz := mz i) (wg := fun _ => wg i) (fun j => (hm i j).1) (fun _ => (hw i).1) (by omega)
    rw [hD i hi] at h1
    cases h1
    rw [h3]
    omega
  rw [hlast, Finset.sum_congr rfl hlay, Finset.sum_add_distrib, ← Finset.mul_sum, Finset.sum_const, Finset.card_range]
  have hs : ∑ i ∈ Finset.range (N - 1), (N - 1 - i) = N * (N - 1) / 2 := by
    have e : ∑ i ∈ Finset.range (N - 1), (N - 1 - i) = ∑ i ∈ Finset.range N, i := by
      obtain ⟨n, rfl⟩ : ∃ n, N = n + 1 := ⟨N - 1, by omega⟩
      rw [Finset.sum_range_succ', add_tsub_cancel_right, add_zero, ← Finset.sum_range_reflect]
      apply Finset.sum_congr rfl
      intro i hi
      rw [Finset.mem_range] at hi
      omega
    rw [e, Finset.sum_range_id]
  rw [hs]
  simp
  omega

/-- Networks of width four. The network drawn in the documentation of `RingNetwork` (four columns and phases, 40 ports) is none of
them. -/
example : (∃ d, reck 4 (fun _ _ => .mzi 1 2 2.34 3.4 1.55e-6 0 0) (fun _ => .waveguide 1 0 1 1 1 0) = .ok d ∧ d.comp.n = 32) ∧ (∃ d, clements 4 3 (fun _ _ => .coupler (1 / 2)) (fun _ _ => .waveguide 1 0 1 1 1 0) = .ok d ∧ d.comp.n = 32) ∧
    (∃ d, ring 4 3 (fun _ _ => .coupler (1 / 2)) (fun _ _ => .waveguide 1 0 1 1 1 0) = .ok d ∧ d.comp.n = 32) ∧
    ∃ d, ring 4 4 (fun _ _ => .coupler (1 / 2)) (fun _ _ => .waveguide 1 0 1 1 1 0) = .ok d ∧ d.comp.n = 48 :=
  ⟨C124_reck 4 (by omega) _ _ (fun _ _ => (mzi_four ..).2) fun _ => (waveguide_two ..).2,
    C124_clements 4 3 (by omega) (by omega) _ _ (fun _ _ => rfl) fun _ _ => rfl,
    C124_ring 4 3 (by omega) rfl (by omega) _ _ (fun _ _ => rfl) fun _ _ => rfl,
    C124_ring 4 4 (by omega) rfl (by omega) _ _ (fun _ _ => rfl) fun _ _ => rfl⟩

end PT
