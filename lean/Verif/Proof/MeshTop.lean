import Verif.Proof.Mesh
import Verif.Proof.Chain

/-! Proof support: the meshes as a whole. -/

namespace PT
open Spec

/-- What is needed of a layer of a mesh. -/
structure LayerOK (P : Part → Prop) (N : ℕ) (d : Dev) : Prop where
  made : MadeOf P d
  len : (freePorts d.comp).length = 2 * N

/-- A four-port and a two-port component. -/
def FourOf (P : Part → Prop) (p : Part) : Prop := P p ∧ FourPort p
def TwoOf (P : Part → Prop) (p : Part) : Prop := P p ∧ TwoPort p

theorem four_fit {P : Part → Prop} {x : Str} {p : Part} (hx : x.head? = some 'm') (h : FourOf P p) :
    (P p ∧ p.n = leafPorts x) ∧ (x.head? = some 'm' ∧ FourPort p ∨ x.head? ≠ some 'm' ∧ TwoPort p) :=
  ⟨⟨h.1, by rw [leafPorts, if_pos hx]; exact h.2.1⟩, .inl ⟨hx, h.2⟩⟩

theorem two_fit {P : Part → Prop} {x : Str} {p : Part} (hx : x.head? ≠ some 'm') (h : TwoOf P p) :
    (P p ∧ p.n = leafPorts x) ∧ (x.head? = some 'm' ∧ FourPort p ∨ x.head? ≠ some 'm' ∧ TwoPort p) :=
  ⟨⟨h.1, by rw [leafPorts, if_neg hx]; exact h.2.1⟩, .inr ⟨hx, h.2⟩⟩

theorem fit_split {P : Part → Prop} {parts : List (Str × Part)}
    (h : ∀ q ∈ parts, (P q.2 ∧ q.2.n = leafPorts q.1) ∧
      (q.1.head? = some 'm' ∧ FourPort q.2 ∨ q.1.head? ≠ some 'm' ∧ TwoPort q.2)) :
    PartsCount P parts ∧ PartsFit parts := ⟨fun q hq => (h q hq).1, fun q hq => (h q hq).2⟩

variable {P : Part → Prop}

theorem reckLayer_ok {N : ℕ} (hN : 2 ≤ N) {mz : ℕ → Part} {wg : Part} (hm : ∀ i, FourOf P (mz i)) (hw : TwoOf P wg) :
    ∃ d, reckLayer N mz wg = .ok d ∧ LayerOK P N d ∧ Oriented d fun j => decide (j < N) := by
  obtain ⟨h1, h2⟩ := fit_split (P := P) (parts := reckLayerParts N mz wg) (by
    intro q hq
    simp only [reckLayerParts, List.mem_append, List.mem_map, List.mem_singleton] at hq
    rcases hq with ⟨i, -, rfl⟩ | rfl
    · exact four_fit (head_mzi i) (hm i)
    · exact two_fit (by simp) hw)
  obtain ⟨d, hd, h⟩ := reckLayer_made hN h1
  exact ⟨d, hd, ⟨h.made, by rw [h.len, ioList_length]⟩,
    h.oriented leafSide (reckLevel N) h2.oriented (reckLayer_directed hN) _ (reckLayer_side N)⟩

theorem phase_ok {N : ℕ} (hN : 0 < N) {wg : ℕ → Part} (hw : ∀ i, TwoOf P (wg i)) :
    ∃ d, phaseArray N wg = .ok d ∧ LayerOK P N d ∧ Oriented d fun j => decide (j < N) := by
  obtain ⟨h1, h2⟩ := fit_split (P := P) (parts := phaseParts N wg) (by
    intro q hq
    simp only [phaseParts, List.mem_map] at hq
    obtain ⟨i, -, rfl⟩ := hq
    exact two_fit (by simp [head_wg]) (hw i))
  obtain ⟨d, hd, h⟩ := phase_made hN h1
  exact ⟨d, hd, ⟨h.made, by rw [h.len, ioList_length]⟩,
    h.oriented leafSide (fun _ => 0) h2.oriented (phase_directed N _ _) _ (phase_side N)⟩

theorem mixing_ok {N : ℕ} (hN : 0 < N) {mz wg : ℕ → Part} (hm : ∀ i, FourOf P (mz i)) (hw : ∀ i, TwoOf P (wg i)) :
    ∃ d, mixingArray N mz wg = .ok d ∧ LayerOK P N d ∧ Oriented d fun j => decide (j < N) := by
  obtain ⟨h1, h2⟩ := fit_split (P := P) (parts := mixingParts N mz wg) (by
    intro q hq
    simp only [mixingParts, List.mem_append, List.mem_map, List.mem_ite_nil_right, List.mem_singleton] at hq
    rcases hq with (⟨i, -, rfl⟩ | ⟨i, -, rfl⟩) | ⟨-, rfl⟩
    · exact two_fit (by simp [head_wg]) (hw i)
    · exact four_fit (head_mzi i) (hm i)
    · exact two_fit (by simp) (hw N))
  obtain ⟨d, hd, h⟩ := mixing_made hN h1
  exact ⟨d, hd, ⟨h.made, by rw [h.len, ioList_length]⟩,
    h.oriented leafSide mixingLevel h2.oriented (mixing_directed N) _ (mixing_side N)⟩

theorem cap2_ok {N : ℕ} (hN : 2 ≤ N) {mz : ℕ → Part} {wg : Part} (hm : ∀ i, FourOf P (mz i)) (hw : TwoOf P wg) :
    ∃ d, cap2 N mz wg = .ok d ∧ LayerOK P N d ∧ Oriented d fun j => decide (j < N) := by
  obtain ⟨h1, h2⟩ := fit_split (P := P) (parts := cap2Parts N mz wg) (by
    intro q hq
    simp only [cap2Parts, List.mem_append, List.mem_map, List.mem_cons, List.not_mem_nil, or_false] at hq
    rcases hq with ⟨i, -, rfl⟩ | rfl | rfl
    · exact four_fit (head_mzi i) (hm i)
    · exact two_fit (by simp [head_wg]) hw
    · exact two_fit (by simp [head_wg]) hw)
  obtain ⟨d, hd, h⟩ := cap2_made hN h1
  exact ⟨d, hd, ⟨h.made, by rw [h.len, ioList_length]⟩,
    h.oriented leafSide (cap2Level N) h2.oriented (cap2_directed hN) _ (cap2_side N)⟩

/-! ### `ReckNxN` -/

/-- Names of the layers of `ReckNxN`. -/
def reckName (N i : ℕ) : Str := if i < N - 1 then layerN i else ['w', 'g']
def reckIdx (N : ℕ) (x : Str) : ℕ := if x.head? = some 'l' then numOf 5 x else N - 1

theorem reckIdx_name {N : ℕ} : ∀ i ≤ N - 1, reckIdx N (reckName N i) = i := by
  intro i hi
  unfold reckName
  split
  · rw [reckIdx, if_pos (head_layer i), numOf_layer]
  · rw [reckIdx, if_neg (by decide)]
    omega

theorem reck_text {N : ℕ} (hN : 2 ≤ N) : reckConns N =
    (chainCs (N - 1) (fun i => N - 1 - i) (fun i => N - i + 1) (reckName N)).map Conn.text := by
  obtain ⟨M, rfl⟩ : ∃ M, N = M + 2 := ⟨N - 2, by omega⟩
  unfold reckConns chainCs
  rw [show M + 2 - 1 = M + 1 by omega, List.range_succ (n := M), List.flatMap_append, List.map_append, List.map_flatMap]
  congr 1
  · rw [show M + 1 - 1 = M by omega]
    apply List.flatMap_congr
    intro i hi
    rw [List.mem_range] at hi
    simp only [List.map_map, Function.comp_def]
    rw [show M + 2 - (i + 1) = M + 1 - i by omega]
    apply List.map_congr_left
    intro j hj
    rw [conn4_text]
    unfold reckName
    rw [if_pos (by omega), if_pos (by omega)]
    congr 3
    omega
  · simp only [List.flatMap_cons, List.flatMap_nil, List.append_nil]
    rw [show M + 1 - M = 1 by omega]
    simp only [List.range_one, List.map_cons, List.map_nil]
    rw [conn4_text]
    unfold reckName
    rw [if_pos (by omega), if_neg (by omega)]
    congr 4 

theorem flatMap_single {α β : Type} (l : List α) (g : α → List β) (h : α → β) (H : ∀ a ∈ l, g a = [h a]) :
    l.flatMap g = l.map h := by
  induction l with
  | nil => rfl
  | cons a l ih =>
    rw [List.flatMap_cons, H a (by simp), ih fun b hb => H b (by simp [hb])]
    rfl

theorem reck_open {N : ℕ} (hN : 2 ≤ N) :
    chainOpen (N - 1) (fun i => N - 1 - i) (fun i => N - i + 1) (fun i => 2 * (N - i)) (reckName N) =
      ioList N (fun j => (reckName N 0, j)) (fun j => (reckName N j, N - j)) := by
  obtain ⟨M, rfl⟩ : ∃ M, N = M + 2 := ⟨N - 2, by omega⟩
  unfold chainOpen ioList
  rw [show M + 2 - 1 + 1 = M + 2 by omega, List.range_succ_eq_map, List.flatMap_cons, List.flatMap_map]
  have h0 : (List.range (2 * (M + 2 - 0))).filter (fun j => !linked (M + 2 - 1) (fun i => M + 2 - 1 - i)
      (fun i => M + 2 - i + 1) 0 j) = List.range (M + 3) := by
    rw [show 2 * (M + 2 - 0) = (M + 3) + (M + 1) by omega]
    apply range_filter_lt
    · intro j hj
      simp [linked]
      omega
    · intro j h1 h2
      simp [linked]
      omega
  rw [h0]
  have hi : ∀ i ∈ List.range (M + 1), ((List.range (2 * (M + 2 - (i + 1)))).filter (fun j => !linked (M + 2 - 1)
      (fun i => M + 2 - 1 - i) (fun i => M + 2 - i + 1) (i + 1) j)).map (fun (j : ℕ) => (reckName (M + 2) (i + 1), (j : ℤ))) =
      [(reckName (M + 2) (i + 1), ((M + 2 - (i + 1) : ℕ) : ℤ))] := by
    intro i hi
    rw [List.mem_range] at hi
    rw [show 2 * (M + 2 - (i + 1)) = (M + 1 - i) + (M + 1 - i) by omega]
    rw [List.range_add, List.filter_append, List.filter_eq_nil_iff.mpr, List.nil_append]
    · obtain ⟨k, hk⟩ : ∃ k, M + 1 - i = k + 1 := ⟨M - i, by omega⟩
      rw [hk, List.range_succ_eq_map, List.map_cons, List.filter_cons_of_pos, List.filter_eq_nil_iff.mpr]
      · rw [show M + 2 - (i + 1) = k + 1 + 0 by omega]
        rfl
      · intro x hx
        simp only [List.map_map, List.mem_map, List.mem_range, Function.comp_apply] at hx
        obtain ⟨l, hl, rfl⟩ := hx
        simp [linked]
        omega
      · simp [linked]
        omega
    · intro j hj
      rw [List.mem_range] at hj
      simp [linked]
      omega
  rw [flatMap_single _ _ _ hi, List.range_succ (n := M + 2), List.map_append, List.append_assoc]
  congr 1
  · rw [← List.range_succ_eq_map]
  · simp only [List.map_cons, List.map_nil, List.map_map, Function.comp_def, List.cons_append, List.nil_append]
    rfl

/-- The layers of `ReckNxN`, and the waveguide at the end. -/
noncomputable def reckDevs (N : ℕ) (D : ℕ → Dev) (wg : ℕ → Part) (i : ℕ) : Dev :=
  if i < N - 1 then D i else (wg (N - 1)).dev

theorem reckDevs_ok {N : ℕ} (hN : 2 ≤ N) {mz : ℕ → ℕ → Part} {wg : ℕ → Part} (hm : ∀ m i, FourOf P (mz m i))
    (hw : ∀ m, TwoOf P (wg m)) {D : ℕ → Dev} (hD : ∀ m < N - 1, reckLayer (N - m) (mz m) (wg m) = .ok (D m)) :
    ∀ i ≤ N - 1, LayerOK P (N - i) (reckDevs N D wg i) ∧ Oriented (reckDevs N D wg i) fun j => decide (j < N - i) := by
  intro i hi
  unfold reckDevs
  split
  · rename_i h
    obtain ⟨d, hd, h1, h2⟩ := reckLayer_ok (P := P) (N := N - i) (by omega) (hm i) (hw i)
    rw [hD i h] at hd
    simp only [Except.ok.injEq] at hd
    subst hd
    exact ⟨h1, h2⟩
  · rename_i h
    rw [show N - i = 1 by omega]
    refine ⟨⟨.part _ (hw _).1 (by rw [(hw _).2.1]; omega), ?_⟩, ?_⟩
    · show (freePorts (wg (N - 1)).comp).length = 2 * 1
      rw [part_free, List.length_range, (hw _).2.1]
    · refine part_oriented _ _ ?_ ?_
      · intro wl a b hab
        have hne := (hw (N - 1)).2.2 wl a b hab
        have hn := (hw (N - 1)).2.1
        have := a.2
        have := b.2
        have : (a : ℕ) ≠ b := fun h => hne (Fin.ext h)
        intro heq
        simp only [decide_eq_decide] at heq
        omega
      · intro k hk
        have hs := part_src _ k hk
        have := (hw (N - 1)).2.1
        rw [hs] at this
        exact absurd this (by show (1 : ℕ) ≠ 2; decide)

theorem reck_chain {N : ℕ} (hN : 2 ≤ N) {mz : ℕ → ℕ → Part} {wg : ℕ → Part} (hm : ∀ m i, FourOf P (mz m i))
    (hw : ∀ m, TwoOf P (wg m)) {D : ℕ → Dev} (hD : ∀ m < N - 1, reckLayer (N - m) (mz m) (wg m) = .ok (D m)) :
    ∃ d, reck N mz wg = .ok d ∧
      Made P ((List.range (N - 1 + 1)).map fun i => (reckName N i, reckDevs N D wg i))
        (chainCs (N - 1) (fun i => N - 1 - i) (fun i => N - i + 1) (reckName N))
        (ioList N (fun j => (reckName N 0, j)) (fun j => (reckName N j, N - j))) d := by
  have hdev := reckDevs_ok hN hm hw hD
  have hmade := chain_made (P := P) (K := N - 1) (f := reckName N) (idx := reckIdx N) (cnt := fun i => N - 1 - i)
    (base := fun i => N - i + 1) (sz := fun i => 2 * (N - i)) (devs := reckDevs N D wg) (by omega) reckIdx_name ?_ ?_
    (fun i hi => ⟨(hdev i hi).1.made, (hdev i hi).1.len⟩) (reck_text hN) ?_
  · obtain ⟨d, hd, h⟩ := hmade
    refine ⟨d, ?_, by rw [← reck_open hN]; exact h⟩
    unfold reck
    rw [if_neg (by omega)]
    have hl : reckLayers N mz wg = .ok ((List.range (N - 1)).map fun i => (layerN i, D i)) := by
      unfold reckLayers
      have := mapE_map_ok (f := fun m => (reckLayer (N - m) (mz m) (wg m)).map fun d => (layerN m, d)) (g := id)
        (h := fun i => (layerN i, D i)) (List.range (N - 1)) (by
          intro m hm'
          rw [List.mem_range] at hm'
          simp only [id, hD m hm', Except.map])
      simpa using this
    rw [hl]
    show mkDev none _ _ = _
    rw [← hd]
    congr 1
    rw [List.range_succ, List.map_append]
    congr 1
    · apply List.map_congr_left
      intro i hi
      rw [List.mem_range] at hi
      simp only [reckName, reckDevs]
      rw [if_pos hi, if_pos hi]
    · simp [reckName, reckDevs]
  · intro i hi
    unfold reckName
    split
    · exact (lbl_attr (by decide) i).1
    · exact goodName_dec (by decide)
  · intro i hi
    omega
  · rw [reck_open hN, ioList_length, List.range_succ, List.map_append, List.sum_append]
    have hs : ((List.range (N - 1)).map fun i => 2 * (N - i)).sum =
        2 * ((List.range (N - 1)).map fun i => N - 1 - i).sum + 2 * (N - 1) := by
      have key : ∀ l : List ℕ, (∀ i ∈ l, i < N - 1) → (l.map fun i => 2 * (N - i)).sum =
          2 * (l.map fun i => N - 1 - i).sum + 2 * l.length := by
        intro l
        induction l with
        | nil => intro _; rfl
        | cons a l ih =>
          intro h
          have := ih fun i hi => h i (by simp [hi])
          have := h a (by simp)
          simp only [List.map_cons, List.sum_cons, List.length_cons]
          omega
      rw [key _ fun i hi => List.mem_range.mp hi, List.length_range]
    rw [hs]
    simp
    omega

theorem reckLayer_exists {N : ℕ} {mz : ℕ → ℕ → Part} {wg : ℕ → Part} (hm : ∀ m i, FourOf P (mz m i))
    (hw : ∀ m, TwoOf P (wg m)) : ∃ D : ℕ → Dev, ∀ m < N - 1, reckLayer (N - m) (mz m) (wg m) = .ok (D m) := by
  have hlay : ∀ m, ∃ d, m < N - 1 → reckLayer (N - m) (mz m) (wg m) = .ok d := by
    intro m
    by_cases h : m < N - 1
    · obtain ⟨d, hd, -⟩ := reckLayer_ok (P := P) (N := N - m) (by omega) (hm m) (hw m)
      exact ⟨d, fun _ => hd⟩
    · exact ⟨(wg 0).dev, fun h' => absurd h' h⟩
  choose D hD using hlay
  exact ⟨D, hD⟩

theorem reck_made {N : ℕ} (hN : 2 ≤ N) {mz : ℕ → ℕ → Part} {wg : ℕ → Part} (hm : ∀ m i, FourOf P (mz m i))
    (hw : ∀ m, TwoOf P (wg m)) : ∃ d, reck N mz wg = .ok d ∧ LayerOK P N d ∧ Oriented d fun j => decide (j < N) := by
  obtain ⟨D, hD⟩ := reckLayer_exists (N := N) hm hw
  obtain ⟨d, hd, h⟩ := reck_chain hN hm hw hD
  refine ⟨d, hd, ⟨h.made, by rw [h.len, ioList_length]⟩, ?_⟩
  refine h.oriented (fun x j => decide (j < N - reckIdx N x)) (reckIdx N) ?_
    (chain_directed (half := fun i => N - i) reckIdx_name ?_ ?_) _ ?_
  · intro x e hx
    have := dictGet_mem hx
    obtain ⟨i, hi, he⟩ := List.mem_map.mp this
    rw [List.mem_range] at hi
    simp only [Prod.mk.injEq] at he
    obtain ⟨rfl, rfl⟩ := he
    rw [reckIdx_name i (by omega)]
    exact (reckDevs_ok hN hm hw hD i (by omega)).2
  · intro i hi
    omega
  · intro i hi
    omega
  · apply ioList_side
    · intro j hj
      simp only [reckIdx_name 0 (Nat.zero_le _)]
      simpa using hj
    · intro j hj
      have hx := reckIdx_name (N := N) j (by omega)
      simp only [hx]
      simp

/-! ### Layers of the same size -/

theorem layers_text (N k : ℕ) :
    layersConns N k = (chainCs k (fun _ => N) (fun _ => N) layerN).map Conn.text := by
  unfold layersConns chainCs
  rw [List.map_flatMap]
  apply List.flatMap_congr
  intro i _
  rw [List.map_map]
  apply List.map_congr_left
  intro j _
  rw [conn4_text]
  rfl

theorem layers_open (N k : ℕ) (hk : 0 < k) : chainOpen k (fun _ => N) (fun _ => N) (fun _ => 2 * N) layerN =
    ioList N (fun j => (layerN 0, j)) (fun j => (layerN k, N + j)) := by
  obtain ⟨m, rfl⟩ : ∃ m, k = m + 1 := ⟨k - 1, by omega⟩
  unfold chainOpen ioList
  rw [List.range_succ_eq_map, List.flatMap_cons, List.flatMap_map, List.range_succ, List.flatMap_append,
    List.flatMap_cons, List.flatMap_nil, List.append_nil]
  have hmid : ((List.range m).flatMap fun i => ((List.range (2 * N)).filter fun j =>
      !linked (m + 1) (fun _ => N) (fun _ => N) (i + 1) j).map fun (j : ℕ) => (layerN (i + 1), (j : ℤ))) = [] := by
    rw [List.flatMap_eq_nil_iff]
    intro i hi
    rw [List.mem_range] at hi
    rw [List.map_eq_nil_iff, List.filter_eq_nil_iff]
    intro j hj
    rw [List.mem_range] at hj
    simp [linked]
    omega
  have h0 : (List.range (2 * N)).filter (fun j => !linked (m + 1) (fun _ => N) (fun _ => N) 0 j) = List.range N := by
    rw [show 2 * N = N + N by omega]
    apply range_filter_lt
    · intro j hj
      simp [linked]
      omega
    · intro j h1 h2
      simp [linked]
      omega
  have hl : (List.range (2 * N)).filter (fun j => !linked (m + 1) (fun _ => N) (fun _ => N) (m + 1) j) =
      (List.range N).map (N + ·) := by
    rw [show 2 * N = N + N by omega]
    apply range_filter_ge
    · intro j hj
      simp [linked]
      omega
    · intro j h1 h2
      simp [linked]
      omega
  have hmid' := hmid
  simp only [Nat.succ_eq_add_one] at *
  rw [hmid, h0, hl, List.nil_append, List.map_map]
  rfl

theorem layer_names (k : ℕ) : ∀ i ≤ k, numOf 5 (layerN i) = i := fun i _ => numOf_layer i

theorem layers_made {N k : ℕ} (hN : 0 < N) (hk : 0 < k) {devs : ℕ → Dev} (hdev : ∀ i ≤ k, LayerOK P N (devs i)) :
    ∃ d, mkDev none (((List.range k).map fun i => (layerN i, devs i)) ++ [(layerN k, devs k)]) (layersConns N k) = .ok d ∧
      Made P ((List.range (k + 1)).map fun i => (layerN i, devs i)) (chainCs k (fun _ => N) (fun _ => N) layerN)
        (ioList N (fun j => (layerN 0, j)) (fun j => (layerN k, N + j))) d := by
  have hmade := chain_made (P := P) (K := k) (f := layerN) (idx := numOf 5) (cnt := fun _ => N)
    (base := fun _ => N) (sz := fun _ => 2 * N) (devs := devs) hk (layer_names k)
    (fun i _ => (lbl_attr (by decide) i).1) (fun _ _ => hN) (fun i hi => ⟨(hdev i hi).made, (hdev i hi).len⟩)
    (layers_text N k) ?_
  · obtain ⟨d, hd, h⟩ := hmade
    rw [layers_open N k hk] at h
    refine ⟨d, ?_, h⟩
    rw [← hd, List.range_succ, List.map_append]
    rfl
  · rw [layers_open N k hk, ioList_length, sum_map_const _ _ N (fun _ _ => rfl),
      sum_map_const _ _ (2 * N) (fun _ _ => rfl), List.length_range, List.length_range]
    apply le_of_eq
    ring

theorem layers_oriented {N k : ℕ} {devs : ℕ → Dev} {d : Dev}
    (h : Made P ((List.range (k + 1)).map fun i => (layerN i, devs i)) (chainCs k (fun _ => N) (fun _ => N) layerN)
        (ioList N (fun j => (layerN 0, j)) (fun j => (layerN k, N + j))) d)
    (ho : ∀ i ≤ k, Oriented (devs i) fun j => decide (j < N)) : Oriented d fun j => decide (j < N) := by
  refine h.oriented (fun x j => decide (j < N)) (numOf 5) ?_
    (chain_directed (half := fun _ => N) (layer_names k) (fun _ _ => le_refl _) (fun _ _ => le_refl _)) _ ?_
  · intro x e hx
    obtain ⟨i, hi, he⟩ := List.mem_map.mp (dictGet_mem hx)
    rw [List.mem_range] at hi
    simp only [Prod.mk.injEq] at he
    obtain ⟨rfl, rfl⟩ := he
    exact ho i (by omega)
  · apply ioList_side
    · intro j hj
      simpa using hj
    · intro j hj
      simp

theorem clements_made {N capacity : ℕ} (hN : 2 ≤ N) (hcap : 2 ≤ capacity) {mz wg : ℕ → ℕ → Part}
    (hm : ∀ m i, FourOf P (mz m i)) (hw : ∀ m i, TwoOf P (wg m i)) :
    ∃ d, clements N capacity mz wg = .ok d ∧ LayerOK P N d ∧ Oriented d fun j => decide (j < N) := by
  have hlast : ∃ d, clementsLast N capacity (mz (capacity / 2)) (wg (capacity / 2)) = .ok d ∧ LayerOK P N d ∧
      Oriented d fun j => decide (j < N) := by
    unfold clementsLast
    split
    · exact phase_ok (by omega) (hw _)
    · exact mixing_ok (by omega) (hm _) (hw _)
  obtain ⟨dl, hdl, hdl1, hdl2⟩ := hlast
  have hlay : ∀ m, ∃ d, cap2 N (mz m) (wg m 0) = .ok d ∧ LayerOK P N d ∧ Oriented d fun j => decide (j < N) :=
    fun m => cap2_ok hN (hm m) (hw m 0)
  choose D hD using hlay
  let devs : ℕ → Dev := fun i => if i < capacity / 2 then D i else dl
  have hdev : ∀ i ≤ capacity / 2, LayerOK P N (devs i) ∧ Oriented (devs i) fun j => decide (j < N) := by
    intro i hi
    simp only [devs]
    split
    · exact (hD i).2
    · exact ⟨hdl1, hdl2⟩
  obtain ⟨d, hd, h⟩ := layers_made (by omega) (by omega) fun i hi => (hdev i hi).1
  refine ⟨d, ?_, ⟨h.made, by rw [h.len, ioList_length]⟩, layers_oriented h fun i hi => (hdev i hi).2⟩
  unfold clements
  have hl : mapE (fun i => (cap2 N (mz i) (wg i 0)).map fun d => (layerN i, d)) (List.range (capacity / 2)) =
      .ok ((List.range (capacity / 2)).map fun i => (layerN i, D i)) := by
    have := mapE_map_ok (f := fun i => (cap2 N (mz i) (wg i 0)).map fun d => (layerN i, d)) (g := id)
      (h := fun i => (layerN i, D i)) (List.range (capacity / 2)) (by
        intro m _
        simp only [id, (hD m).1, Except.map])
    simpa using this
  rw [hl, hdl]
  show mkDev none _ _ = _
  rw [← hd]
  congr 1
  congr 1
  · apply List.map_congr_left
    intro i hi
    rw [List.mem_range] at hi
    simp only [devs]
    rw [if_pos hi]
  · simp [devs]

theorem ring_made {N capacity : ℕ} (hN : 0 < N) (heven : N % 2 = 0) (hcap : 2 ≤ capacity) {mz wg : ℕ → ℕ → Part}
    (hm : ∀ m i, P (mz m i) ∧ (mz m i).n = 4) (hw : ∀ m i, P (wg m i) ∧ (wg m i).n = 2) :
    ∃ (d : Dev) (devs : ℕ → Dev), ring N capacity mz wg = .ok d ∧
      (∀ i < capacity / 2, ringArray N (mz i) (wg i) = .ok (devs i)) ∧
      mixingRing N (mz (capacity / 2)) (wg (capacity / 2)) = .ok (devs (capacity / 2)) ∧
      Made P ((List.range (capacity / 2 + 1)).map fun i => (layerN i, devs i))
        (chainCs (capacity / 2) (fun _ => N) (fun _ => N) layerN)
        (ioList N (fun j => (layerN 0, j)) (fun j => (layerN (capacity / 2), N + j))) d := by
  have h4 : ∀ m i k, P (mz m i) ∧ (mz m i).n = leafPorts (mziN k) := fun m i k => ⟨(hm m i).1, (hm m i).2⟩
  have h2 : ∀ m i k, P (wg m i) ∧ (wg m i).n = leafPorts (wgN k) := fun m i k => ⟨(hw m i).1, (hw m i).2⟩
  have hlast : ∃ d, mixingRing N (mz (capacity / 2)) (wg (capacity / 2)) = .ok d ∧ LayerOK P N d := by
    have hp : PartsCount P (mixingRingParts N (mz (capacity / 2)) (wg (capacity / 2))) := by
      intro q hq
      simp only [mixingRingParts, List.mem_append, List.mem_map] at hq
      rcases hq with ⟨i, -, rfl⟩ | ⟨i, -, rfl⟩
      · exact h2 _ _ _
      · exact h4 _ _ _
    obtain ⟨d, hd, h⟩ := mixingRing_made hN heven hp
    exact ⟨d, hd, ⟨h.made, by rw [h.len, ioList_length]⟩⟩
  obtain ⟨dl, hdl, hdl1⟩ := hlast
  have hlay : ∀ m, ∃ d, ringArray N (mz m) (wg m) = .ok d ∧ LayerOK P N d := by
    intro m
    have hp : PartsCount P (ringArrayParts N (mz m) (wg m)) := by
      intro q hq
      simp only [ringArrayParts, List.mem_append, List.mem_map] at hq
      rcases hq with ⟨i, -, rfl⟩ | ⟨i, -, rfl⟩
      · exact h2 _ _ _
      · exact h4 _ _ _
    obtain ⟨d, hd, h⟩ := ringArray_made hN heven hp
    exact ⟨d, hd, ⟨h.made, by rw [h.len, ioList_length]⟩⟩
  choose D hD using hlay
  let devs : ℕ → Dev := fun i => if i < capacity / 2 then D i else dl
  have hdev : ∀ i ≤ capacity / 2, LayerOK P N (devs i) := by
    intro i hi
    simp only [devs]
    split
    · exact (hD i).2
    · exact hdl1
  obtain ⟨d, hd, h⟩ := layers_made hN (by omega) hdev
  refine ⟨d, devs, ?_, fun i hi => by simp only [devs]; rw [if_pos hi]; exact (hD i).1,
    by simp only [devs]; rw [if_neg (by omega)]; exact hdl, h⟩
  unfold ring
  rw [if_neg (by omega)]
  have hl : mapE (fun i => (ringArray N (mz i) (wg i)).map fun d => (layerN i, d)) (List.range (capacity / 2)) =
      .ok ((List.range (capacity / 2)).map fun i => (layerN i, D i)) := by
    have := mapE_map_ok (f := fun i => (ringArray N (mz i) (wg i)).map fun d => (layerN i, d)) (g := id)
      (h := fun i => (layerN i, D i)) (List.range (capacity / 2)) (by
        intro m _
        simp only [id, (hD m).1, Except.map])
    simpa using this
  rw [hl, hdl]
  show mkDev none _ _ = _
  rw [← hd]
  congr 1
  congr 1
  · apply List.map_congr_left
    intro i hi
    rw [List.mem_range] at hi
    simp only [devs]
    rw [if_pos hi]
  · simp [devs]

end PT
