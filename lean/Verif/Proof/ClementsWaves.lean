import Verif.Proof.Clements

/-! Proof support: the waves in Clements networks. -/

namespace PT
open Spec

variable {P : Part → Prop} {R : Type} [CommRing R]

/-- The waves entering and leaving the parts of `_PhaseArray`. -/
theorem phase_carries {N : ℕ} (hN : 0 < N) {wg : ℕ → Part} (hw : ∀ i, TwoOf P (wg i)) {d : Dev}
    (hd : phaseArray N wg = .ok d) (u : Look R) (a : ℕ → R) :
    Carries d u (inSide N a) (outSide N fun k => (wg k).dev.gain u 1 0 * a k) := by
  obtain ⟨h1, h2⟩ := fit_split (P := P) (parts := phaseParts N wg) (by
    intro q hq
    simp only [phaseParts, List.mem_map] at hq
    obtain ⟨i, -, rfl⟩ := hq
    exact two_fit (by simp [head_wg]) (hw i))
  obtain ⟨d', hd', h⟩ := phase_made hN h1
  rw [hd] at hd'
  simp only [Except.ok.injEq] at hd'
  subst hd'
  refine h.carries u (fun x => inTwo (a (numOf 2 x)))
    (fun x => outTwo ((wg (numOf 2 x)).dev.gain u 1 0 * a (numOf 2 x))) ?_ ?_ _ _ (ioList_waves ?_ ?_ ?_ ?_)
  · intro x e hx
    have hmem := dictGet_mem hx
    simp only [phaseParts, List.map_map, List.mem_map, List.mem_range, Function.comp_apply, Prod.mk.injEq] at hmem
    obtain ⟨i, hi, rfl, rfl⟩ := hmem
    rw [numOf_wg]
    exact two_carries (hw i).2 u _
  · intro p i q j hpq
    simp [phaseCs] at hpq
  · intro j hj
    simp only [numOf_wg]
    rfl
  · intro j hj
    rfl
  · intro j hj
    rfl
  · intro j hj
    simp only [numOf_wg]
    rfl

/-- The waves entering and leaving the parts of `_MixingPhaseArrayClements`; `m` are the interferometers' waves. -/
noncomputable def mixF (N : ℕ) (a m : ℕ → R) (x : Str) : ℕ → R :=
  if x.head? = some 'm' then inFour (a (2 * numOf 3 x)) (a (2 * numOf 3 x + 1))
  else if x = ['w', 'g', '_'] then inTwo (a (N - 1)) else inTwo (m (numOf 2 x))
noncomputable def mixG (N : ℕ) (m y : ℕ → R) (x : Str) : ℕ → R :=
  if x.head? = some 'm' then outFour (m (2 * numOf 3 x)) (m (2 * numOf 3 x + 1))
  else if x = ['w', 'g', '_'] then outTwo (m (N - 1)) else outTwo (y (numOf 2 x))

theorem mixF_mzi (N : ℕ) (a m : ℕ → R) (k : ℕ) : mixF N a m (mziN k) = inFour (a (2 * k)) (a (2 * k + 1)) := by
  rw [mixF, if_pos (head_mzi k), numOf_mzi]
theorem mixG_mzi (N : ℕ) (m y : ℕ → R) (k : ℕ) : mixG N m y (mziN k) = outFour (m (2 * k)) (m (2 * k + 1)) := by
  rw [mixG, if_pos (head_mzi k), numOf_mzi]
theorem mixF_wg (N : ℕ) (a m : ℕ → R) (k : ℕ) : mixF N a m (wgN k) = inTwo (m k) := by
  rw [mixF, if_neg (by simp [head_wg]), if_neg (wgN_ne k), numOf_wg]
theorem mixG_wg (N : ℕ) (m y : ℕ → R) (k : ℕ) : mixG N m y (wgN k) = outTwo (y k) := by
  rw [mixG, if_neg (by simp [head_wg]), if_neg (wgN_ne k), numOf_wg]
theorem mixF_pass (N : ℕ) (a m : ℕ → R) : mixF N a m ['w', 'g', '_'] = inTwo (a (N - 1)) := by
  rw [mixF, if_neg (by decide), if_pos rfl]
theorem mixG_pass (N : ℕ) (m y : ℕ → R) : mixG N m y ['w', 'g', '_'] = outTwo (m (N - 1)) := by
  rw [mixG, if_neg (by decide), if_pos rfl]

theorem mixing_carries {N : ℕ} (hN : 0 < N) {mz wg : ℕ → Part} (hm : ∀ i, FourOf P (mz i)) (hw : ∀ i, TwoOf P (wg i)) {d : Dev}
    (hd : mixingArray N mz wg = .ok d) (u : Look R) (a : ℕ → R) :
    Carries d u (inSide N a) (outSide N fun k => (wg k).dev.gain u 1 0 *
      rowOut 0 (N - 1) (fun j => cellOf (mz (j / 2)) u) ((wg N).dev.gain u 1 0) a k) := by
  obtain ⟨h1, h2⟩ := fit_split (P := P) (parts := mixingParts N mz wg) (by
    intro q hq
    simp only [mixingParts, List.mem_append, List.mem_map, List.mem_ite_nil_right, List.mem_singleton] at hq
    rcases hq with (⟨i, -, rfl⟩ | ⟨i, -, rfl⟩) | ⟨-, rfl⟩
    · exact two_fit (by simp [head_wg]) (hw i)
    · exact four_fit (head_mzi i) (hm i)
    · exact two_fit (by simp) (hw N))
  obtain ⟨d', hd', h⟩ := mixing_made hN h1
  rw [hd] at hd'
  simp only [Except.ok.injEq] at hd'
  subst hd'
  set m := rowOut 0 (N - 1) (fun j => cellOf (mz (j / 2)) u) ((wg N).dev.gain u 1 0) a with hmd
  set y : ℕ → R := fun k => (wg k).dev.gain u 1 0 * m k with hy
  have m0 : ∀ i < N / 2, m (2 * i) = (cellOf (mz i) u).α * a (2 * i) + (cellOf (mz i) u).β * a (2 * i + 1) := by
    intro i hi
    rw [hmd, rowOut, if_pos (by omega), if_pos (by omega), show 2 * i / 2 = i by omega]
  have m1 : ∀ i < N / 2, m (2 * i + 1) = (cellOf (mz i) u).γ * a (2 * i) + (cellOf (mz i) u).δ * a (2 * i + 1) := by
    intro i hi
    rw [hmd, rowOut, if_neg (by omega), if_neg (by omega), show 2 * i + 1 - 1 = 2 * i by omega, show 2 * i / 2 = i by omega]
  have m2 : N % 2 = 1 → m (N - 1) = (wg N).dev.gain u 1 0 * a (N - 1) := by
    intro hodd
    rw [hmd, rowOut, if_pos (by omega), if_neg (by omega)]
  refine h.carries u (mixF N a m) (mixG N m y) ?_ ?_ _ _ (ioList_waves ?_ ?_ ?_ ?_)
  · intro x e hx
    have hmem := dictGet_mem hx
    simp only [mixingParts, List.map_append, List.map_map, List.mem_append, List.mem_map, List.mem_range, Function.comp_apply,
      Prod.mk.injEq, apply_ite (List.map fun q : Str × Part => (q.1, q.2.dev)), List.map_cons, List.map_nil,
      List.mem_ite_nil_right, List.mem_singleton] at hmem
    rcases hmem with (⟨i, hi, rfl, rfl⟩ | ⟨i, hi, rfl, rfl⟩) | ⟨hodd, rfl, rfl⟩
    · rw [mixF_wg, mixG_wg]
      exact two_carries (hw i).2 u _
    · rw [mixF_mzi, mixG_mzi, m0 i hi, m1 i hi]
      exact four_carries (hm i).2 u _ _
    · rw [mixF_pass, mixG_pass, m2 hodd]
      exact two_carries (hw N).2 u _
  · intro p i q j hpq
    simp only [mixingCs, List.mem_append, List.mem_flatMap, List.mem_map, List.mem_range, List.mem_cons, List.not_mem_nil,
      reduceCtorEq, and_false, exists_false, or_false, Conn.inner.injEq, List.mem_ite_nil_right] at hpq
    rcases hpq with ⟨k, hk, ⟨rfl, rfl, rfl, rfl⟩ | ⟨rfl, rfl, rfl, rfl⟩⟩ | ⟨hk, rfl, rfl, rfl, rfl⟩
    · refine ⟨1, 0, rfl, rfl, ?_, ?_⟩ <;> simp only [mixF_mzi, mixG_mzi, mixF_wg, mixG_wg] <;> rfl
    · refine ⟨2, 0, rfl, rfl, ?_, ?_⟩ <;> simp only [mixF_mzi, mixG_mzi, mixF_wg, mixG_wg] <;> rfl
    · refine ⟨1, 0, rfl, rfl, ?_, ?_⟩ <;> simp only [mixF_pass, mixG_pass, mixF_wg, mixG_wg] <;> rfl
  · intro j hj
    unfold mixingIn
    split
    · rw [mixF_mzi]
      split
      · show a _ = _
        congr 1; omega
      · show a _ = _
        congr 1; omega
    · rw [mixF_pass]
      show a _ = _
      congr 1; omega
  · intro j hj
    unfold mixingIn
    split
    · rw [mixG_mzi]
      split <;> rfl
    · rw [mixG_pass]; rfl
  · intro j hj
    rw [mixF_wg]; rfl
  · intro j hj
    rw [mixG_wg]; rfl

/-- The waves entering and leaving the parts of `_Capacity2ClementsNxN`; `b` are those between the two rows. -/
noncomputable def capF (N : ℕ) (a b : ℕ → R) (x : Str) : ℕ → R :=
  if x.head? = some 'm' then
    (if numOf 3 x % 2 = 0 then inFour (a (numOf 3 x)) (a (numOf 3 x + 1)) else inFour (b (numOf 3 x)) (b (numOf 3 x + 1)))
  else if numOf 2 x = 0 then inTwo (b 0) else if N % 2 = 1 then inTwo (a (N - 1)) else inTwo (b (N - 1))
noncomputable def capG (N : ℕ) (b y : ℕ → R) (x : Str) : ℕ → R :=
  if x.head? = some 'm' then
    (if numOf 3 x % 2 = 0 then outFour (b (numOf 3 x)) (b (numOf 3 x + 1)) else outFour (y (numOf 3 x)) (y (numOf 3 x + 1)))
  else if numOf 2 x = 0 then outTwo (y 0) else if N % 2 = 1 then outTwo (b (N - 1)) else outTwo (y (N - 1))

theorem capF_mzi (N : ℕ) (a b : ℕ → R) (k : ℕ) : capF N a b (mziN k) =
    if k % 2 = 0 then inFour (a k) (a (k + 1)) else inFour (b k) (b (k + 1)) := by
  rw [capF, if_pos (head_mzi k), numOf_mzi]
theorem capG_mzi (N : ℕ) (b y : ℕ → R) (k : ℕ) : capG N b y (mziN k) =
    if k % 2 = 0 then outFour (b k) (b (k + 1)) else outFour (y k) (y (k + 1)) := by
  rw [capG, if_pos (head_mzi k), numOf_mzi]
theorem capF_wg0 (N : ℕ) (a b : ℕ → R) : capF N a b (wgN 0) = inTwo (b 0) := by
  rw [capF, if_neg (by simp [head_wg]), numOf_wg, if_pos rfl]
theorem capG_wg0 (N : ℕ) (b y : ℕ → R) : capG N b y (wgN 0) = outTwo (y 0) := by
  rw [capG, if_neg (by simp [head_wg]), numOf_wg, if_pos rfl]
theorem capF_wg1 (N : ℕ) (a b : ℕ → R) : capF N a b (wgN 1) = if N % 2 = 1 then inTwo (a (N - 1)) else inTwo (b (N - 1)) := by
  rw [capF, if_neg (by simp [head_wg]), numOf_wg, if_neg (by omega)]
theorem capG_wg1 (N : ℕ) (b y : ℕ → R) : capG N b y (wgN 1) = if N % 2 = 1 then outTwo (b (N - 1)) else outTwo (y (N - 1)) := by
  rw [capG, if_neg (by simp [head_wg]), numOf_wg, if_neg (by omega)]

theorem cap2_carries {N : ℕ} (hN : 2 ≤ N) {mz : ℕ → Part} {wg : Part} (hm : ∀ i, FourOf P (mz i)) (hw : TwoOf P wg) {d : Dev}
    (hd : cap2 N mz wg = .ok d) (u : Look R) (a : ℕ → R) :
    Carries d u (inSide N a) (outSide N (rowOut 1 (N - 1) (fun j => cellOf (mz j) u) (wg.dev.gain u 1 0)
      (rowOut 0 (N - 1) (fun j => cellOf (mz j) u) (wg.dev.gain u 1 0) a))) := by
  obtain ⟨h1, h2⟩ := fit_split (P := P) (parts := cap2Parts N mz wg) (by
    intro q hq
    simp only [cap2Parts, List.mem_append, List.mem_map, List.mem_cons, List.not_mem_nil, or_false] at hq
    rcases hq with ⟨i, -, rfl⟩ | rfl | rfl
    · exact four_fit (head_mzi i) (hm i)
    · exact two_fit (by simp [head_wg]) hw
    · exact two_fit (by simp [head_wg]) hw)
  obtain ⟨d', hd', h⟩ := cap2_made hN h1
  rw [hd] at hd'
  simp only [Except.ok.injEq] at hd'
  subst hd'
  set c : ℕ → Cell R := fun j => cellOf (mz j) u with hc
  set w := wg.dev.gain u 1 0 with hwd
  set b := rowOut 0 (N - 1) c w a with hb
  set y := rowOut 1 (N - 1) c w b with hy
  have b0 : ∀ k < N - 1, k % 2 = 0 → b k = (c k).α * a k + (c k).β * a (k + 1) ∧
      b (k + 1) = (c k).γ * a k + (c k).δ * a (k + 1) := by
    intro k hk he
    rw [hb]
    constructor
    · rw [rowOut, if_pos he, if_pos hk]
    · rw [rowOut, if_neg (by omega), if_neg (by omega), Nat.add_sub_cancel]
  have y0 : ∀ k < N - 1, k % 2 = 1 → y k = (c k).α * b k + (c k).β * b (k + 1) ∧
      y (k + 1) = (c k).γ * b k + (c k).δ * b (k + 1) := by
    intro k hk he
    rw [hy]
    constructor
    · rw [rowOut, if_pos he, if_pos hk]
    · rw [rowOut, if_neg (by omega), if_neg (by omega), Nat.add_sub_cancel]
  have y1 : y 0 = w * b 0 := by rw [hy, rowOut, if_neg (by omega), if_pos rfl]
  have b2 : N % 2 = 1 → b (N - 1) = w * a (N - 1) := by
    intro ho
    rw [hb, rowOut, if_pos (by omega), if_neg (by omega)]
  have y2 : ¬ N % 2 = 1 → y (N - 1) = w * b (N - 1) := by
    intro ho
    rw [hy, rowOut, if_pos (by omega), if_neg (by omega)]
  refine h.carries u (capF N a b) (capG N b y) ?_ ?_ _ _ (ioList_waves ?_ ?_ ?_ ?_)
  · intro x e hx
    have hmem := dictGet_mem hx
    simp only [cap2Parts, List.map_append, List.map_map, List.mem_append, List.mem_map, List.mem_range, Function.comp_apply,
      Prod.mk.injEq, List.map_cons, List.map_nil, List.mem_cons, List.not_mem_nil, or_false] at hmem
    rcases hmem with ⟨i, hi, rfl, rfl⟩ | ⟨rfl, rfl⟩ | ⟨rfl, rfl⟩
    · rw [capF_mzi, capG_mzi]
      split
      · rename_i he
        rw [(b0 i hi he).1, (b0 i hi he).2]
        exact four_carries (hm i).2 u _ _
      · rename_i he
        rw [(y0 i hi (by omega)).1, (y0 i hi (by omega)).2]
        exact four_carries (hm i).2 u _ _
    · rw [capF_wg0, capG_wg0, y1]
      exact two_carries hw.2 u _
    · rw [capF_wg1, capG_wg1]
      split
      · rename_i ho
        rw [b2 ho]
        exact two_carries hw.2 u _
      · rename_i ho
        rw [y2 ho]
        exact two_carries hw.2 u _
  · intro p i q j hpq
    simp only [cap2Cs, List.mem_append, List.mem_flatMap, List.mem_cons, List.not_mem_nil,
      reduceCtorEq, and_false, exists_false, or_false, Conn.inner.injEq, List.mem_ite_nil_right, mem_range2] at hpq
    rcases hpq with ((⟨rfl, rfl, rfl, rfl⟩ | ⟨k, hk, ⟨rfl, rfl, rfl, rfl⟩ | ⟨rfl, rfl, rfl, rfl⟩⟩) |
      ⟨hk, rfl, rfl, rfl, rfl⟩) | hpq
    · refine ⟨1, 0, rfl, rfl, ?_, ?_⟩ <;> simp only [capF_mzi, capG_mzi, capF_wg0, capG_wg0] <;> rfl
    · obtain ⟨k, rfl⟩ : ∃ m, k = m + 1 := ⟨k - 1, by omega⟩
      have e1 : k % 2 = 0 := by omega
      have e2 : ¬(k + 1) % 2 = 0 := by omega
      refine ⟨2, 0, rfl, rfl, ?_, ?_⟩ <;> simp only [capF_mzi, capG_mzi, Nat.add_sub_cancel, if_pos e1, if_neg e2] <;> rfl
    · have e1 : ¬k % 2 = 0 := by omega
      have e2 : (k + 1) % 2 = 0 := by omega
      refine ⟨3, 1, rfl, rfl, ?_, ?_⟩ <;> simp only [capF_mzi, capG_mzi, if_neg e1, if_pos e2] <;> rfl
    · obtain ⟨M, rfl⟩ : ∃ M, N = M + 3 := ⟨N - 3, by omega⟩
      have e1 : M % 2 = 0 := by omega
      have e2 : ¬(M + 1) % 2 = 0 := by omega
      refine ⟨2, 0, rfl, rfl, ?_, ?_⟩ <;>
        simp only [show M + 3 - 1 - 2 = M from rfl, show M + 3 - 1 - 1 = M + 1 from rfl, capF_mzi, capG_mzi, if_pos e1,
          if_neg e2] <;> rfl
    · split at hpq
      · rename_i ho
        simp only [List.mem_singleton, Conn.inner.injEq] at hpq
        obtain ⟨rfl, rfl, rfl, rfl⟩ := hpq
        have e2 : ¬(N - 2) % 2 = 0 := by omega
        refine ⟨1, 3, rfl, rfl, ?_, ?_⟩ <;>
          simp only [capF_mzi, capG_mzi, capF_wg1, capG_wg1, if_pos ho, if_neg e2, show N - 2 + 1 = N - 1 by omega] <;> rfl
      · rename_i ho
        simp only [List.mem_singleton, Conn.inner.injEq] at hpq
        obtain ⟨rfl, rfl, rfl, rfl⟩ := hpq
        have e2 : (N - 2) % 2 = 0 := by omega
        refine ⟨2, 0, rfl, rfl, ?_, ?_⟩ <;>
          simp only [capF_mzi, capG_mzi, capF_wg1, capG_wg1, if_neg ho, if_pos e2, show N - 2 + 1 = N - 1 by omega] <;> rfl
  · intro j hj
    unfold cap2In
    split
    · rw [capF_mzi, if_pos (by omega)]
      show a _ = _
      congr 1; omega
    · split
      · rw [capF_mzi, if_pos (by omega)]; rfl
      · rw [capF_wg1, if_pos (by omega)]
        show a _ = _
        congr 1; omega
  · intro j hj
    unfold cap2In
    split
    · rw [capG_mzi, if_pos (by omega)]; rfl
    · split
      · rw [capG_mzi, if_pos (by omega)]; rfl
      · rw [capG_wg1, if_pos (by omega)]; rfl
  · intro j hj
    unfold cap2Out
    split
    · rw [capF_wg0]; rfl
    · split
      · rw [capF_mzi, if_neg (by omega)]; rfl
      · split
        · rw [capF_mzi, if_neg (by omega)]; rfl
        · rw [capF_wg1, if_neg (by omega)]; rfl
  · intro j hj
    unfold cap2Out
    split
    · rename_i h0
      rw [capG_wg0, h0]; rfl
    · split
      · rw [capG_mzi, if_neg (by omega)]
        show y _ = _
        congr 1; omega
      · split
        · rw [capG_mzi, if_neg (by omega)]; rfl
        · rw [capG_wg1, if_neg (by omega)]
          show y _ = _
          congr 1; omega

/-- The waves in layers one after the other. -/
theorem layers_carries {N k : ℕ} {devs : ℕ → Dev} {d : Dev}
    (h : Made P ((List.range (k + 1)).map fun i => (layerN i, devs i)) (chainCs k (fun _ => N) (fun _ => N) layerN)
        (ioList N (fun j => (layerN 0, j)) (fun j => (layerN k, N + j))) d) (u : Look R) (st : ℕ → ℕ → R)
    (hc : ∀ i ≤ k, Carries (devs i) u (inSide N (st i)) (outSide N (st (i + 1)))) :
    Carries d u (inSide N (st 0)) (outSide N (st (k + 1))) := by
  refine h.carries u (fun x => inSide N (st (numOf 5 x))) (fun x => outSide N (st (numOf 5 x + 1))) ?_ ?_ _ _
    (ioList_waves ?_ ?_ ?_ ?_)
  · intro x e hx
    obtain ⟨i, hi, he⟩ := List.mem_map.mp (dictGet_mem hx)
    rw [List.mem_range] at hi
    simp only [Prod.mk.injEq] at he
    obtain ⟨rfl, rfl⟩ := he
    rw [numOf_layer]
    exact hc i (by omega)
  · intro p i q j hpq
    simp only [chainCs, List.mem_flatMap, List.mem_map, List.mem_range, Conn.inner.injEq] at hpq
    obtain ⟨i, hi, l, hl, rfl, rfl, rfl, rfl⟩ := hpq
    refine ⟨_, _, rfl, rfl, ?_, ?_⟩
    · simp only [numOf_layer]
      unfold inSide outSide
      rw [if_neg (by omega), if_pos hl]
    · simp only [numOf_layer]
      unfold inSide outSide
      rw [if_pos hl, if_neg (by omega), Nat.add_sub_cancel_left]
  · intro j hj
    simp only [numOf_layer]
    exact if_pos hj
  · intro j hj
    simp only [numOf_layer]
    exact if_pos hj
  · intro j hj
    simp only [numOf_layer]
    exact if_neg (by omega)
  · intro j hj
    simp only [numOf_layer]
    unfold outSide
    rw [if_neg (by omega), Nat.add_sub_cancel_left]

/-- The interferometer on place `j` of row `l` of a Clements network. -/
def rowIdx (capacity l j : ℕ) : ℕ := if l / 2 < capacity / 2 then j else j / 2

/-- The waveguide which the other modes of row `l` pass. -/
def passIdx (N capacity l : ℕ) : ℕ := if l / 2 < capacity / 2 then 0 else N

theorem clements_carries {N capacity : ℕ} (hN : 2 ≤ N) (hcap : 2 ≤ capacity) {mz wg : ℕ → ℕ → Part}
    (hm : ∀ m i, FourOf P (mz m i)) (hw : ∀ m i, TwoOf P (wg m i)) {d : Dev} (hd : clements N capacity mz wg = .ok d)
    (u : Look R) (a : ℕ → R) :
    Carries d u (inSide N a) (outSide N fun k => (wg (capacity / 2) k).dev.gain u 1 0 *
      rowState (N - 1) (fun l j => cellOf (mz (l / 2) (rowIdx capacity l j)) u)
        (fun l => (wg (l / 2) (passIdx N capacity l)).dev.gain u 1 0) a capacity k) := by
  have hlast : ∃ d, clementsLast N capacity (mz (capacity / 2)) (wg (capacity / 2)) = .ok d ∧ LayerOK P N d := by
    unfold clementsLast
    split
    · obtain ⟨d, h1, h2, -⟩ := phase_ok (N := N) (by omega) (hw (capacity / 2))
      exact ⟨d, h1, h2⟩
    · obtain ⟨d, h1, h2, -⟩ := mixing_ok (N := N) (by omega) (hm (capacity / 2)) (hw (capacity / 2))
      exact ⟨d, h1, h2⟩
  obtain ⟨dl, hdl, hdl1⟩ := hlast
  have hlay : ∀ m, ∃ d, cap2 N (mz m) (wg m 0) = .ok d ∧ LayerOK P N d ∧ Oriented d fun j => decide (j < N) :=
    fun m => cap2_ok hN (hm m) (hw m 0)
  choose D hD using hlay
  let devs : ℕ → Dev := fun i => if i < capacity / 2 then D i else dl
  have hdev : ∀ i ≤ capacity / 2, LayerOK P N (devs i) := by
    intro i hi
    simp only [devs]
    split
    · exact (hD i).2.1
    · exact hdl1
  obtain ⟨d', hd', h⟩ := layers_made (by omega) (by omega) hdev
  have he : d' = d := by
    have : clements N capacity mz wg = .ok d' := by
      unfold clements
      have hl : mapE (fun i => (cap2 N (mz i) (wg i 0)).map fun d => (layerN i, d)) (List.range (capacity / 2)) =
          .ok ((List.range (capacity / 2)).map fun i => (layerN i, D i)) := by
        have := mapE_map_ok (f := fun i => (cap2 N (mz i) (wg i 0)).map fun d => (layerN i, d)) (g := id)
          (h := fun i => (layerN i, D i)) (List.range (capacity / 2)) (by
            intro m _
            simp only [id, (hD m).1, Except.map])
        simpa using this
      rw [hl, hdl]
      show mkDev none _ _ = _
      rw [← hd']
      congr 1
      congr 1
      · apply List.map_congr_left
        intro i hi
        rw [List.mem_range] at hi
        simp only [devs]
        rw [if_pos hi]
      · simp [devs]
    rw [hd] at this
    simp only [Except.ok.injEq] at this
    exact this.symm
  subst he
  set c : ℕ → ℕ → Cell R := fun l j => cellOf (mz (l / 2) (rowIdx capacity l j)) u with hc
  set w : ℕ → R := fun l => (wg (l / 2) (passIdx N capacity l)).dev.gain u 1 0 with hwd
  set Q := rowState (N - 1) c w a with hQ
  set y : ℕ → R := fun k => (wg (capacity / 2) k).dev.gain u 1 0 * Q capacity k with hy
  set st : ℕ → ℕ → R := fun i => if i ≤ capacity / 2 then Q (2 * i) else y with hst
  have key := layers_carries h u st ?_
  · have e0 : st 0 = a := by simp only [hst]; rw [if_pos (by omega)]; rfl
    have e1 : st (capacity / 2 + 1) = y := by simp only [hst]; rw [if_neg (by omega)]
    rw [e0, e1] at key
    exact key
  · intro i hi
    by_cases hlt : i < capacity / 2
    · have e1 : devs i = D i := by simp only [devs]; rw [if_pos hlt]
      have e2 : st i = Q (2 * i) := by simp only [hst]; rw [if_pos hi]
      have e3 : st (i + 1) = Q (2 * i + 1 + 1) := by simp only [hst]; rw [if_pos (by omega)]; congr 1
      have := cap2_carries hN (hm i) (hw i 0) (hD i).1 u (Q (2 * i))
      rw [e1, e2, e3]
      have f0 : Q (2 * i + 1 + 1) = rowOut ((2 * i + 1) % 2) (N - 1) (c (2 * i + 1)) (w (2 * i + 1))
          (rowOut (2 * i % 2) (N - 1) (c (2 * i)) (w (2 * i)) (Q (2 * i))) := rfl
      have g1 : c (2 * i) = fun j => cellOf (mz i j) u := by
        funext j
        simp only [hc, rowIdx]
        rw [show 2 * i / 2 = i by omega, if_pos hlt]
      have g2 : c (2 * i + 1) = fun j => cellOf (mz i j) u := by
        funext j
        simp only [hc, rowIdx]
        rw [show (2 * i + 1) / 2 = i by omega, if_pos hlt]
      have g3 : w (2 * i) = (wg i 0).dev.gain u 1 0 := by
        simp only [hwd, passIdx]
        rw [show 2 * i / 2 = i by omega, if_pos hlt]
      have g4 : w (2 * i + 1) = (wg i 0).dev.gain u 1 0 := by
        simp only [hwd, passIdx]
        rw [show (2 * i + 1) / 2 = i by omega, if_pos hlt]
      rw [f0, g1, g2, g3, g4, show 2 * i % 2 = 0 by omega, show (2 * i + 1) % 2 = 1 by omega]
      exact this
    · have hi' : i = capacity / 2 := by omega
      have e1 : devs i = dl := by simp only [devs]; rw [if_neg hlt]
      have e2 : st i = Q (2 * i) := by simp only [hst]; rw [if_pos hi]
      have e3 : st (i + 1) = y := by simp only [hst]; rw [if_neg (by omega)]
      rw [e1, e2, e3]
      unfold clementsLast at hdl
      split at hdl
      · rename_i heven
        have := phase_carries (by omega) (hw (capacity / 2)) hdl u (Q (2 * i))
        rw [show 2 * i = capacity by omega] at this ⊢
        exact this
      · rename_i hodd
        have := mixing_carries (by omega) (hm (capacity / 2)) (hw (capacity / 2)) hdl u (Q (2 * i))
        have f0 : Q capacity = rowOut (2 * i % 2) (N - 1) (c (2 * i)) (w (2 * i)) (Q (2 * i)) := by
          rw [show capacity = 2 * i + 1 by omega]
          rfl
        have g1 : c (2 * i) = fun j => cellOf (mz (capacity / 2) (j / 2)) u := by
          funext j
          simp only [hc, rowIdx]
          rw [show 2 * i / 2 = capacity / 2 by omega, if_neg (by omega)]
        have g3 : w (2 * i) = (wg (capacity / 2) N).dev.gain u 1 0 := by
          simp only [hwd, passIdx]
          rw [show 2 * i / 2 = capacity / 2 by omega, if_neg (by omega)]
        simp only [hy, f0, g1, g3, show 2 * i % 2 = 0 by omega]
        exact this

end PT
