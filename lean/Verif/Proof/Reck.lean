import Verif.Proof.MeshTop

/-! Proof support: the waves in Reck networks. -/

namespace PT
open Spec

variable {R : Type} [CommRing R]

/-- What a four-port does: `(u, v)` entering the ports 0 and 3 leave the ports 1 and 2 as `(α u + β v, γ u + δ v)`. -/
structure Cell (R : Type) where
  α : R
  β : R
  γ : R
  δ : R

/-- The forward transmissions of a four-port component. -/
noncomputable def cellOf (p : Part) (u : Look R) : Cell R :=
  ⟨p.dev.gain u 1 0, p.dev.gain u 1 3, p.dev.gain u 2 0, p.dev.gain u 2 3⟩

/-- The waves at the ports of a four-port. -/
noncomputable def inFour (u v : R) (i : ℕ) : R := if i = 0 then u else if i = 3 then v else 0
noncomputable def outFour (u v : R) (i : ℕ) : R := if i = 1 then u else if i = 2 then v else 0

/-- The waves at the ports of a two-port. -/
noncomputable def inTwo (u : R) (i : ℕ) : R := if i = 0 then u else 0
noncomputable def outTwo (u : R) (i : ℕ) : R := if i = 1 then u else 0

theorem entry_scattering (p : Part) (wl : ℝ) (i j : Fin p.n) : p.dev.entry wl i j = scattering p wl i j := by
  unfold Dev.entry scattering cx
  show (⟨ofFin (p.S wl).re i j, ofFin (p.S wl).im i j⟩ : ℂ) = _
  unfold ofFin
  rw [dif_pos ⟨i.2, j.2⟩, dif_pos ⟨i.2, j.2⟩]
  apply Complex.ext
  · simp
  · simp

theorem carries_part (p : Part) (u : Look R) (f g : ℕ → R)
    (h : ∀ i < p.n, g i = ∑ j ∈ Finset.range p.n, p.dev.gain u i j * f j) : Carries p.dev u f g := by
  refine ⟨f, g, part_waves p u _ f g f g ?_ fun _ _ => ⟨rfl, rfl⟩⟩
  intro i hi
  rw [h i hi, add_zero]

theorem four_entry {p : Part} (h : FourPort p) (wl : ℝ) {i j : ℕ} (hi : i < 4) (hj : j < 4) (hs : leftOf4 i = leftOf4 j) :
    p.dev.entry wl i j = 0 := by
  rw [← h.1] at hi hj
  have := entry_scattering p wl ⟨i, hi⟩ ⟨j, hj⟩
  simp only at this
  rw [this]
  by_contra hne
  exact h.2 wl ⟨i, hi⟩ ⟨j, hj⟩ hne hs

theorem two_entry {p : Part} (h : TwoPort p) (wl : ℝ) {i : ℕ} (hi : i < 2) : p.dev.entry wl i i = 0 := by
  rw [← h.1] at hi
  have := entry_scattering p wl ⟨i, hi⟩ ⟨i, hi⟩
  simp only at this
  rw [this]
  by_contra hne
  exact h.2 wl ⟨i, hi⟩ ⟨i, hi⟩ hne rfl

theorem four_gain {p : Part} (h : FourPort p) (u : Look R) {i j : ℕ} (hi : i < 4) (hj : j < 4) (hs : leftOf4 i = leftOf4 j) :
    p.dev.gain u i j = 0 := by
  rw [Dev.gain, four_entry h u.wl hi hj hs, u.zero]

theorem two_gain {p : Part} (h : TwoPort p) (u : Look R) {i : ℕ} (hi : i < 2) : p.dev.gain u i i = 0 := by
  rw [Dev.gain, two_entry h u.wl hi, u.zero]

theorem four_carries {p : Part} (h : FourPort p) (u : Look R) (x y : R) : Carries p.dev u (inFour x y)
    (outFour ((cellOf p u).α * x + (cellOf p u).β * y) ((cellOf p u).γ * x + (cellOf p u).δ * y)) := by
  refine carries_part p u _ _ ?_
  intro i hi
  rw [h.1] at hi ⊢
  simp only [Finset.sum_range_succ, Finset.sum_range_zero, inFour, outFour, cellOf]
  have hz : ∀ i j : ℕ, i < 4 → j < 4 → leftOf4 i = leftOf4 j → p.dev.gain u i j = 0 :=
    fun i j hi hj hs => four_gain h u hi hj hs
  have : i = 0 ∨ i = 1 ∨ i = 2 ∨ i = 3 := by omega
  rcases this with rfl | rfl | rfl | rfl
  · simp [hz 0 0 (by omega) (by omega) rfl, hz 0 3 (by omega) (by omega) rfl]
  · simp
  · simp
  · simp [hz 3 0 (by omega) (by omega) rfl, hz 3 3 (by omega) (by omega) rfl]

theorem two_carries {p : Part} (h : TwoPort p) (u : Look R) (x : R) :
    Carries p.dev u (inTwo x) (outTwo (p.dev.gain u 1 0 * x)) := by
  refine carries_part p u _ _ ?_
  intro i hi
  rw [h.1] at hi ⊢
  simp only [Finset.sum_range_succ, Finset.sum_range_zero, inTwo, outTwo]
  have : i = 0 ∨ i = 1 := by omega
  rcases this with rfl | rfl
  · simp [two_gain h u (i := 0) (by omega)]
  · simp

/-! ### A layer -/

/-- What reaches the first of `n` four-ports in a row from the others. -/
def layTop : ℕ → (ℕ → Cell R) → R → (ℕ → R) → R
  | 0, _, w, a => w * a 0
  | n + 1, c, w, a => (c 0).α * a 0 + (c 0).β * layTop n (fun k => c (k + 1)) w fun k => a (k + 1)

/-- The wave between the four-ports `k - 1` and `k`. -/
def layX (n : ℕ) (c : ℕ → Cell R) (w : R) (a : ℕ → R) (k : ℕ) : R :=
  layTop (n - k) (fun i => c (k + i)) w fun i => a (k + i)

theorem layX_last (n : ℕ) (c : ℕ → Cell R) (w : R) (a : ℕ → R) : layX n c w a n = w * a n := by
  simp [layX, layTop]

theorem layX_step {n k : ℕ} (hk : k < n) (c : ℕ → Cell R) (w : R) (a : ℕ → R) :
    layX n c w a k = (c k).α * a k + (c k).β * layX n c w a (k + 1) := by
  unfold layX
  rw [show n - k = (n - (k + 1)) + 1 by omega, layTop]
  simp only [Nat.add_zero, Nat.add_assoc, Nat.add_comm 1]

/-- What leaves a layer with `n` four-ports. -/
def layY (n : ℕ) (c : ℕ → Cell R) (w : R) (a : ℕ → R) : ℕ → R
  | 0 => layX n c w a 0
  | k + 1 => (c k).γ * a k + (c k).δ * layX n c w a (k + 1)

/-- The waves entering the ports of the parts of a layer. -/
noncomputable def layF (n : ℕ) (c : ℕ → Cell R) (w : R) (a : ℕ → R) (x : Str) : ℕ → R :=
  if x.head? = some 'm' then inFour (a (numOf 3 x)) (layX n c w a (numOf 3 x + 1)) else inTwo (a n)

/-- The waves leaving the ports of the parts of a layer. -/
noncomputable def layG (n : ℕ) (c : ℕ → Cell R) (w : R) (a : ℕ → R) (x : Str) : ℕ → R :=
  if x.head? = some 'm' then outFour (layX n c w a (numOf 3 x)) (layY n c w a (numOf 3 x + 1)) else outTwo (w * a n)

theorem layF_mzi (n : ℕ) (c : ℕ → Cell R) (w : R) (a : ℕ → R) (k : ℕ) :
    layF n c w a (mziN k) = inFour (a k) (layX n c w a (k + 1)) := by
  rw [layF, if_pos (head_mzi k), numOf_mzi]
theorem layG_mzi (n : ℕ) (c : ℕ → Cell R) (w : R) (a : ℕ → R) (k : ℕ) :
    layG n c w a (mziN k) = outFour (layX n c w a k) (layY n c w a (k + 1)) := by
  rw [layG, if_pos (head_mzi k), numOf_mzi]
theorem layF_wg (n : ℕ) (c : ℕ → Cell R) (w : R) (a : ℕ → R) : layF n c w a ['w', 'g'] = inTwo (a n) := by
  rw [layF, if_neg (by decide)]
theorem layG_wg (n : ℕ) (c : ℕ → Cell R) (w : R) (a : ℕ → R) : layG n c w a ['w', 'g'] = outTwo (w * a n) := by
  rw [layG, if_neg (by decide)]

/-- Waves on the two sides of a device with `N` ports on each side. -/
noncomputable def inSide (N : ℕ) (a : ℕ → R) (j : ℕ) : R := if j < N then a j else 0
noncomputable def outSide (N : ℕ) (y : ℕ → R) (j : ℕ) : R := if j < N then 0 else y (j - N)

theorem ioList_waves {N : ℕ} {inP outP : ℕ → Str × ℕ} {F G : Str → ℕ → R} {a y : ℕ → R}
    (h1 : ∀ j < N, F (inP j).1 (inP j).2 = a j) (h2 : ∀ j < N, G (inP j).1 (inP j).2 = 0)
    (h3 : ∀ j < N, F (outP j).1 (outP j).2 = 0) (h4 : ∀ j < N, G (outP j).1 (outP j).2 = y j) :
    ∀ (j : ℕ) x (i : ℕ), (ioList N inP outP)[j]? = some (x, (i : ℤ)) → inSide N a j = F x i ∧ outSide N y j = G x i := by
  intro j x i h
  unfold inSide outSide
  rcases ioList_get h with ⟨hj, he⟩ | ⟨hj, hj', he⟩
  · simp only [Prod.mk.injEq, Nat.cast_inj] at he
    rw [he.1, he.2, h1 j hj, h2 j hj, if_pos hj, if_pos hj]
    exact ⟨rfl, rfl⟩
  · simp only [Prod.mk.injEq, Nat.cast_inj] at he
    rw [he.1, he.2, h3 _ hj', h4 _ hj', if_neg (by omega), if_neg (by omega)]
    exact ⟨rfl, rfl⟩

theorem reckLayer_carries {P : Part → Prop} {N : ℕ} (hN : 2 ≤ N) {mz : ℕ → Part} {wg : Part} (hm : ∀ i, FourOf P (mz i))
    (hw : TwoOf P wg) {d : Dev} (hd : reckLayer N mz wg = .ok d) (u : Look R) (a : ℕ → R) :
    Carries d u (inSide N a)
      (outSide N (layY (N - 1) (fun i => cellOf (mz i) u) (wg.dev.gain u 1 0) a)) := by
  obtain ⟨n, rfl⟩ : ∃ n, N = n + 2 := ⟨N - 2, by omega⟩
  obtain ⟨h1, h2⟩ := fit_split (P := P) (parts := reckLayerParts (n + 2) mz wg) (by
    intro q hq
    simp only [reckLayerParts, List.mem_append, List.mem_map, List.mem_singleton] at hq
    rcases hq with ⟨i, -, rfl⟩ | rfl
    · exact four_fit (head_mzi i) (hm i)
    · exact two_fit (by simp) hw)
  obtain ⟨d', hd', h⟩ := reckLayer_made hN h1
  rw [hd] at hd'
  simp only [Except.ok.injEq] at hd'
  subst hd'
  simp only [show n + 2 - 1 = n + 1 from rfl]
  set c : ℕ → Cell R := fun i => cellOf (mz i) u with hc
  set w := wg.dev.gain u 1 0 with hwd
  refine h.carries u (layF (n + 1) c w a) (layG (n + 1) c w a) ?_ ?_ _ _ (ioList_waves ?_ ?_ ?_ ?_)
  · intro x e hx
    have hmem := dictGet_mem hx
    simp only [reckLayerParts, List.map_append, List.map_map, List.map_cons, List.map_nil, List.mem_append, List.mem_map,
      List.mem_range, Function.comp_apply, List.mem_singleton, Prod.mk.injEq] at hmem
    rcases hmem with ⟨i, hi, rfl, rfl⟩ | ⟨rfl, rfl⟩
    · rw [layF_mzi, layG_mzi, layX_step (k := i) (by omega), layY]
      exact four_carries (hm i).2 u _ _
    · rw [layF_wg, layG_wg]
      exact two_carries hw.2 u _
  · intro p i q j hpq
    simp only [reckLayerCs, List.mem_append, List.mem_map, List.mem_range, List.mem_singleton, reduceCtorEq, and_false,
      exists_false, or_false, Conn.inner.injEq] at hpq
    rcases hpq with ⟨k, hk, rfl, rfl, rfl, rfl⟩ | ⟨rfl, rfl, rfl, rfl⟩
    · refine ⟨3, 1, rfl, rfl, ?_, ?_⟩
      · rw [layF_mzi, layG_mzi]; rfl
      · rw [layF_mzi, layG_mzi]; rfl
    · refine ⟨3, 1, rfl, rfl, ?_, ?_⟩
      · rw [layF_mzi, layG_wg]
        show layX (n + 1) c w a (n + 1) = w * a (n + 1)
        exact layX_last _ _ _ _
      · rw [layG_mzi, layF_wg]; rfl
  · intro j hj
    unfold reckIn
    split
    · rw [layF_mzi]; rfl
    · rw [layF_wg, show j = n + 1 by omega]; rfl
  · intro j hj
    unfold reckIn
    split
    · rw [layG_mzi]; rfl
    · rw [layG_wg]; rfl
  · intro j hj
    unfold reckOut
    split
    · rw [layF_mzi]; rfl
    · rw [layF_mzi]; rfl
  · intro j hj
    unfold reckOut
    split
    · rename_i h0
      subst h0
      rw [layG_mzi]; rfl
    · rename_i h0
      obtain ⟨k, rfl⟩ : ∃ k, j = k + 1 := ⟨j - 1, by omega⟩
      rw [layG_mzi]; rfl

/-! ### The whole network -/

/-- What enters layer `m` of a network with `n + 1` inputs. -/
def reckState : ℕ → (ℕ → ℕ → Cell R) → (ℕ → R) → (ℕ → R) → ℕ → ℕ → R
  | _, _, _, a, 0 => a
  | n, c, w, a, m + 1 => reckState (n - 1) (fun i => c (i + 1)) (fun i => w (i + 1))
      (fun k => layY n (c 0) (w 0) a (k + 1)) m

theorem reckState_step : ∀ (m n : ℕ) (c : ℕ → ℕ → Cell R) (w : ℕ → R) (a : ℕ → R) (k : ℕ),
    reckState n c w a (m + 1) k = layY (n - m) (c m) (w m) (reckState n c w a m) (k + 1)
  | 0, n, c, w, a, k => by simp [reckState]
  | m + 1, n, c, w, a, k => by
    rw [reckState, reckState_step m, reckState, Nat.sub_sub, Nat.add_comm 1 m]

/-- What leaves output `m` of a network with `n + 1` inputs. -/
def reckRes (n : ℕ) (c : ℕ → ℕ → Cell R) (w : ℕ → R) (a : ℕ → R) (m : ℕ) : R :=
  layY (n - m) (c m) (w m) (reckState n c w a m) 0

theorem reckRes_zero (n : ℕ) (c : ℕ → ℕ → Cell R) (w : ℕ → R) (a : ℕ → R) : reckRes n c w a 0 = layY n (c 0) (w 0) a 0 := rfl

theorem reckRes_succ (n : ℕ) (c : ℕ → ℕ → Cell R) (w : ℕ → R) (a : ℕ → R) (m : ℕ) : reckRes (n + 1) c w a (m + 1) =
    reckRes n (fun i => c (i + 1)) (fun i => w (i + 1)) (fun k => layY (n + 1) (c 0) (w 0) a (k + 1)) m := by
  unfold reckRes
  rw [Nat.add_sub_add_right]
  rfl

theorem Carries.congr {d : Dev} {u : Look R} {f g f' g' : ℕ → R} (h : Carries d u f g)
    (he : ∀ j < (freePorts d.comp).length, f j = f' j ∧ g j = g' j) : Carries d u f' g' := by
  obtain ⟨a, b, hw⟩ := h
  refine ⟨a, b, hw.out, hw.link, ?_⟩
  intro j p hp
  have hj : j < (freePorts d.comp).length := by
    by_contra hlt
    rw [List.getElem?_eq_none (by omega)] at hp
    cases hp
  obtain ⟨h1, h2⟩ := hw.port j p hp
  obtain ⟨e1, e2⟩ := he j hj
  exact ⟨h1.trans e1, h2.trans e2⟩

theorem reck_carries {P : Part → Prop} {N : ℕ} (hN : 2 ≤ N) {mz : ℕ → ℕ → Part} {wg : ℕ → Part}
    (hm : ∀ m i, FourOf P (mz m i)) (hw : ∀ m, TwoOf P (wg m)) {d : Dev} (hd : reck N mz wg = .ok d) (u : Look R) (a : ℕ → R) :
    Carries d u (inSide N a) (outSide N (reckRes (N - 1) (fun m i => cellOf (mz m i) u)
      (fun m => (wg m).dev.gain u 1 0) a)) := by
  obtain ⟨D, hD⟩ := reckLayer_exists (N := N) hm hw
  obtain ⟨d', hd', h⟩ := reck_chain hN hm hw hD
  rw [hd] at hd'
  simp only [Except.ok.injEq] at hd'
  subst hd'
  set c : ℕ → ℕ → Cell R := fun m i => cellOf (mz m i) u with hc
  set w : ℕ → R := fun m => (wg m).dev.gain u 1 0 with hwd
  set st : ℕ → ℕ → R := reckState (N - 1) c w a with hst
  set y : ℕ → ℕ → R := fun m => layY (N - 1 - m) (c m) (w m) (st m) with hy
  have hidx : ∀ i ≤ N - 1, reckIdx N (reckName N i) = i := reckIdx_name
  refine h.carries u (fun x => inSide (N - reckIdx N x) (st (reckIdx N x)))
    (fun x => outSide (N - reckIdx N x) (y (reckIdx N x))) ?_ ?_ _ _ (ioList_waves ?_ ?_ ?_ ?_)
  · intro x e hx
    obtain ⟨i, hi, he⟩ := List.mem_map.mp (dictGet_mem hx)
    rw [List.mem_range] at hi
    simp only [Prod.mk.injEq] at he
    obtain ⟨rfl, rfl⟩ := he
    rw [hidx i (by omega)]
    unfold reckDevs
    split
    · rename_i hlt
      have := reckLayer_carries (P := P) (N := N - i) (by omega) (hm i) (hw i) (hD i hlt) u (st i)
      rw [Nat.sub_right_comm] at this
      exact this
    · have hi' : i = N - 1 := by omega
      have hlen : (freePorts (wg (N - 1)).dev.comp).length = 2 := by
        show (freePorts (wg (N - 1)).comp).length = 2
        rw [part_free, List.length_range, (hw _).2.1]
      refine (two_carries (hw (N - 1)).2 u (st i 0)).congr ?_
      rw [hlen, show N - i = 1 by omega]
      intro j hj
      have : j = 0 ∨ j = 1 := by omega
      rcases this with rfl | rfl
      · exact ⟨rfl, rfl⟩
      · refine ⟨rfl, ?_⟩
        show (wg (N - 1)).dev.gain u 1 0 * st i 0 = y i 0
        simp only [hy, hi', Nat.sub_self]
        simp [layY, layX, layTop, hwd]
  · intro p i q j hpq
    simp only [chainCs, List.mem_flatMap, List.mem_map, List.mem_range, Conn.inner.injEq] at hpq
    obtain ⟨k, hk, l, hl, rfl, rfl, rfl, rfl⟩ := hpq
    refine ⟨_, _, rfl, rfl, ?_, ?_⟩
    · simp only [hidx k (by omega), hidx (k + 1) (by omega)]
      unfold inSide outSide
      rw [if_neg (by omega), if_pos (by omega)]
    · simp only [hidx k (by omega), hidx (k + 1) (by omega)]
      unfold inSide outSide
      rw [if_pos (by omega), if_neg (by omega), show N - k + 1 + l - (N - k) = l + 1 by omega]
      exact reckState_step k (N - 1) c w a l
  · intro j hj
    simp only [hidx 0 (by omega)]
    exact if_pos (by simpa using hj)
  · intro j hj
    simp only [hidx 0 (by omega)]
    exact if_pos (by simpa using hj)
  · intro j hj
    simp only [hidx j (by omega)]
    exact if_neg (by omega)
  · intro j hj
    simp only [hidx j (by omega)]
    show outSide (N - j) (y j) (N - j) = _
    unfold outSide
    rw [if_neg (by omega), Nat.sub_self]
    rfl

end PT
