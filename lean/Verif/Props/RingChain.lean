import Verif.Proof.RingChain

/-!
# C123: ring networks of width two are chains of coupled rings
-/

namespace PT
open Spec

namespace RingChain
open Crow

variable {n : ℕ} {k : ℕ → ℝ} {top btm : ℕ → Wg}

/-- The couplers of a chain with one coupler more that passes everything. -/
noncomputable def oneMore (n : ℕ) (k : ℕ → ℝ) (i : ℕ) : ℝ := if i ≤ n then k i else 1

theorem oneMore_le {i : ℕ} (hi : i ≤ n) : oneMore n k i = k i := if_pos hi
theorem oneMore_last : oneMore n k (n + 1) = 1 := if_neg (by omega)

theorem oneMore_range (hk : ∀ i ≤ n, 0 ≤ k i ∧ k i ≤ 1) : ∀ i ≤ n + 1, 0 ≤ oneMore n k i ∧ oneMore n k i ≤ 1 := by
  intro i hi
  rcases Nat.lt_or_ge n i with h | h
  · rw [show i = n + 1 by omega, oneMore_last]; norm_num
  · rw [oneMore_le h]; exact hk i h

theorem ratio_more (τ τ' z : ℕ → ℂ) : ∀ (m i : ℕ), (∀ j, j ≤ i + m → τ' j = τ j) → τ' (i + m + 1) = 0 →
    crowRatio τ' z i (m + 1) = crowRatio τ z i m := by
  intro m
  induction m with
  | zero =>
    intro i h h0
    simp only [add_zero] at h0
    simp only [crowRatio, h0, h i le_rfl, mul_zero, sub_zero, mul_one]
  | succ m ih =>
    intro i h h0
    rw [crowRatio, ih (i + 1) (fun j hj => h j (by omega)) (by rw [← h0]; congr 1; omega), h i (by omega)]
    rfl

theorem at_more (wl : ℝ) : crowAt (n + 1) (oneMore n k) top btm wl = crowAt n k top btm wl := by
  refine ratio_more _ _ _ n 0 (fun j hj => ?_) ?_
  · rw [oneMore_le (by omega)]
  · rw [zero_add, oneMore_last]; simp

theorem pass_more (wl : ℝ) : crowPass (n + 1) (oneMore n k) top btm wl = Complex.I * ringPass n k top btm wl := by
  unfold ringPass crowPass
  rw [Finset.prod_range_succ, oneMore_last,
    Finset.prod_range_succ (fun i => if i % 2 = 0 then (btm i).amp wl else (top i).amp wl) n]
  rw [Finset.prod_congr rfl fun i hi => by
    rw [oneMore_le (by rw [Finset.mem_range] at hi; omega : i ≤ n)]]
  simp only [Real.sqrt_one, Complex.ofReal_one, mul_one]
  split <;> ring

/-- What is connected with what. -/
theorem mem_chain {x : Conn} (h : x ∈ chainConns n k top btm) :
    x = .inner "source".toList 0 (dcN 0) 0 ∨ x = .inner "through".toList 0 (dcN 0) 1 ∨ x = .inner (fin1 n) 0 (topN n) 1 ∨
    x = .inner (fin2 n) 0 (btmN n) 1 ∨
    (∃ i < n, x = .inner (topN i) 1 (dcN (i + 1)) 0 ∨ x = .inner (btmN i) 1 (dcN (i + 1)) 1) ∨
    ∃ i ≤ n, x = .inner (topN i) 0 (dcN i) 3 ∨ x = .inner (btmN i) 0 (dcN i) 2 ∨ x = .inner (dcN i) 3 (topN i) 0 ∨
      x = .inner (dcN i) 2 (btmN i) 0 := by
  unfold chainConns ringConns' at h
  simp only [List.mem_append, List.mem_cons, List.not_mem_nil, or_false, List.mem_flatMap, List.mem_range] at h
  rcases h with (h | h | h | h) | ⟨i, hi, h⟩ | ⟨i, hi, h⟩
  · exact .inl h
  · exact .inr (.inl h)
  · exact .inr (.inr (.inl h))
  · exact .inr (.inr (.inr (.inl h)))
  · exact .inr (.inr (.inr (.inr (.inl ⟨i, hi, h⟩))))
  · refine .inr (.inr (.inr (.inr (.inr ⟨i, by omega, ?_⟩))))
    unfold layerSheet at h
    split at h <;> simp only [List.mem_cons, List.not_mem_nil, or_false] at h
    · rcases h with h | h
      · exact .inl h
      · exact .inr (.inl h)
    · exact .inr (.inr h)

theorem chain_elim {P : Str → ℕ → Str → ℕ → Prop} (h1 : P "source".toList 0 (dcN 0) 0 ∧ P (dcN 0) 0 "source".toList 0)
    (h2 : P "through".toList 0 (dcN 0) 1 ∧ P (dcN 0) 1 "through".toList 0)
    (h3 : ∀ i ≤ n, P (dcN i) 3 (topN i) 0 ∧ P (topN i) 0 (dcN i) 3)
    (h4 : ∀ i < n, P (topN i) 1 (dcN (i + 1)) 0 ∧ P (dcN (i + 1)) 0 (topN i) 1)
    (h5 : ∀ i ≤ n, P (dcN i) 2 (btmN i) 0 ∧ P (btmN i) 0 (dcN i) 2)
    (h6 : ∀ i < n, P (btmN i) 1 (dcN (i + 1)) 1 ∧ P (dcN (i + 1)) 1 (btmN i) 1)
    (h7 : P (topN n) 1 (fin1 n) 0 ∧ P (fin1 n) 0 (topN n) 1) (h8 : P (btmN n) 1 (fin2 n) 0 ∧ P (fin2 n) 0 (btmN n) 1)
    (a : Str) (i : ℕ) (b : Str) (j : ℕ) (h : PT.Spec.Joined (chainConns n k top btm) a i b j) : P a i b j := by
  have key : ∀ {a : Str} {i : ℕ} {b : Str} {j : ℕ}, Conn.inner a (i : ℤ) b (j : ℤ) ∈ chainConns n k top btm → P a i b j ∧ P b j a i := by
    intro a i b j h
    have c0 : ∀ {x : ℕ}, (x : ℤ) = 0 → x = 0 := fun h => by exact_mod_cast h
    have c1 : ∀ {x : ℕ}, (x : ℤ) = 1 → x = 1 := fun h => by exact_mod_cast h
    have c2 : ∀ {x : ℕ}, (x : ℤ) = 2 → x = 2 := fun h => by exact_mod_cast h
    have c3 : ∀ {x : ℕ}, (x : ℤ) = 3 → x = 3 := fun h => by exact_mod_cast h
    rcases mem_chain h with h | h | h | h | ⟨l, hl, h | h⟩ | ⟨l, hl, h | h | h | h⟩ <;> simp only [Conn.inner.injEq] at h <;>
      obtain ⟨rfl, hi, rfl, hj⟩ := h
    · cases c0 hi; cases c0 hj; exact h1
    · cases c0 hi; cases c1 hj; exact h2
    · cases c0 hi; cases c1 hj; exact h7.symm
    · cases c0 hi; cases c1 hj; exact h8.symm
    · cases c1 hi; cases c0 hj; exact h4 l hl
    · cases c1 hi; cases c1 hj; exact h6 l hl
    · cases c0 hi; cases c3 hj; exact (h3 l hl).symm
    · cases c0 hi; cases c2 hj; exact (h5 l hl).symm
    · cases c3 hi; cases c0 hj; exact h3 l hl
    · cases c2 hi; cases c0 hj; exact h5 l hl
  rcases h with h | h
  · exact (key h).1
  · exact (key h).2

theorem chain_joins (n : ℕ) (k : ℕ → ℝ) (top btm : ℕ → Wg) : let J := PT.Spec.Joined (chainConns n k top btm)
    J (dcN 0) 0 "source".toList 0 ∧ J (dcN 0) 1 "through".toList 0 ∧ (∀ i ≤ n, J (dcN i) 3 (topN i) 0 ∧ J (dcN i) 2 (btmN i) 0) ∧
    (∀ i < n, J (topN i) 1 (dcN (i + 1)) 0 ∧ J (btmN i) 1 (dcN (i + 1)) 1) ∧ J (topN n) 1 (fin1 n) 0 ∧ J (btmN n) 1 (fin2 n) 0 := by
  intro J
  have hin : ∀ x ∈ ringConns' n k top btm, x ∈ chainConns n k top btm := fun x hx => List.mem_append_right _ hx
  have hlay : ∀ i ≤ n, ∀ x ∈ (layerSheet n k top btm i).conns, x ∈ chainConns n k top btm := fun i hi x hx =>
    hin x (List.mem_append_right _ (List.mem_flatMap.mpr ⟨i, List.mem_range.mpr (by omega), hx⟩))
  have hrow : ∀ i < n, ∀ x ∈ [Conn.inner (topN i) 1 (dcN (i + 1)) 0, .inner (btmN i) 1 (dcN (i + 1)) 1], x ∈ chainConns n k top btm :=
    fun i hi x hx => hin x (List.mem_append_left _ (List.mem_flatMap.mpr ⟨i, List.mem_range.mpr hi, hx⟩))
  have hend : ∀ x ∈ [Conn.inner "source".toList 0 (dcN 0) 0, .inner "through".toList 0 (dcN 0) 1, .inner (fin1 n) 0 (topN n) 1,
      .inner (fin2 n) 0 (btmN n) 1], x ∈ chainConns n k top btm := fun x hx => List.mem_append_left _ hx
  refine ⟨.inr (hend _ (by simp)), .inr (hend _ (by simp)), fun i hi => ?_, fun i hi => ⟨.inl (hrow i hi _ (by simp)),
    .inl (hrow i hi _ (by simp))⟩, .inr (hend _ (by simp)), .inr (hend _ (by simp))⟩
  by_cases h : i < n
  · have he : (layerSheet n k top btm i).conns = [.inner (topN i) 0 (dcN i) 3, .inner (btmN i) 0 (dcN i) 2] := by
      rw [layerSheet, if_pos h]
    exact ⟨.inr (hlay i hi _ (by rw [he]; simp)), .inr (hlay i hi _ (by rw [he]; simp))⟩
  · have he : (layerSheet n k top btm i).conns = [.inner (dcN i) 3 (topN i) 0, .inner (dcN i) 2 (btmN i) 0] := by
      rw [layerSheet, if_neg h]
    exact ⟨.inl (hlay i hi _ (by rw [he]; simp)), .inl (hlay i hi _ (by rw [he]; simp))⟩

theorem mem_parts {q : Str × Part} : q ∈ chainParts n k top btm ↔
    q = ("source".toList, .source) ∨ q = ("through".toList, .detector) ∨ q = (fin1 n, .detector) ∨ q = (fin2 n, .detector) ∨
    (∃ i ≤ n, q = (dcN i, .coupler (k i))) ∨ (∃ i ≤ n, q = (topN i, (top i).part)) ∨ ∃ i ≤ n, q = (btmN i, (btm i).part) := by
  have hl : ∀ i, q ∈ (layerSheet n k top btm i).parts ↔
      q = (dcN i, .coupler (k i)) ∨ q = (topN i, (top i).part) ∨ q = (btmN i, (btm i).part) := by
    intro i
    unfold layerSheet
    split
    · simp only [List.mem_cons, List.not_mem_nil, or_false]
      constructor
      · rintro (h | h | h)
        · exact .inr (.inl h)
        · exact .inl h
        · exact .inr (.inr h)
      · rintro (h | h | h)
        · exact .inr (.inl h)
        · exact .inl h
        · exact .inr (.inr h)
    · simp only [List.mem_cons, List.not_mem_nil, or_false]
  unfold chainParts ringParts
  rw [List.mem_cons, List.mem_append, List.mem_flatMap]
  simp only [List.mem_range, hl, List.mem_cons, List.not_mem_nil, or_false]
  constructor
  · rintro (h | ⟨i, hi, h | h | h⟩ | h | h | h)
    · exact .inl h
    · exact .inr (.inr (.inr (.inr (.inl ⟨i, by omega, h⟩))))
    · exact .inr (.inr (.inr (.inr (.inr (.inl ⟨i, by omega, h⟩)))))
    · exact .inr (.inr (.inr (.inr (.inr (.inr ⟨i, by omega, h⟩)))))
    · exact .inr (.inl h)
    · exact .inr (.inr (.inl h))
    · exact .inr (.inr (.inr (.inl h)))
  · rintro (h | h | h | h | ⟨i, hi, h⟩ | ⟨i, hi, h⟩ | ⟨i, hi, h⟩)
    · exact .inl h
    · exact .inr (.inr (.inl h))
    · exact .inr (.inr (.inr (.inl h)))
    · exact .inr (.inr (.inr (.inr h)))
    · exact .inr (.inl ⟨i, by omega, .inl h⟩)
    · exact .inr (.inl ⟨i, by omega, .inr (.inl h)⟩)
    · exact .inr (.inl ⟨i, by omega, .inr (.inr h)⟩)

theorem parts_in (n : ℕ) (k : ℕ → ℝ) (top btm : ℕ → Wg) : ("source".toList, Part.source) ∈ chainParts n k top btm ∧
    ("through".toList, Part.detector) ∈ chainParts n k top btm ∧ (fin1 n, Part.detector) ∈ chainParts n k top btm ∧
    (fin2 n, Part.detector) ∈ chainParts n k top btm ∧ (∀ i ≤ n, (dcN i, Part.coupler (k i)) ∈ chainParts n k top btm) ∧
    (∀ i ≤ n, (topN i, (top i).part) ∈ chainParts n k top btm) ∧ ∀ i ≤ n, (btmN i, (btm i).part) ∈ chainParts n k top btm :=
  ⟨mem_parts.mpr (.inl rfl), mem_parts.mpr (.inr (.inl rfl)), mem_parts.mpr (.inr (.inr (.inl rfl))),
    mem_parts.mpr (.inr (.inr (.inr (.inl rfl)))), fun i hi => mem_parts.mpr (.inr (.inr (.inr (.inr (.inl ⟨i, hi, rfl⟩))))),
    fun i hi => mem_parts.mpr (.inr (.inr (.inr (.inr (.inr (.inl ⟨i, hi, rfl⟩)))))),
    fun i hi => mem_parts.mpr (.inr (.inr (.inr (.inr (.inr (.inr ⟨i, hi, rfl⟩))))))⟩

/-- Without input there is no light in the rings, unless the denominator vanishes. -/
theorem chain_quiet {env : SimEnv} {v wl : ℝ} (hf : env.freqdomain = true) (hk : ∀ i ≤ n, 0 ≤ k i ∧ k i ≤ 1)
    (hM : (crowAt n k top btm wl).1 ≠ 0) {A B : Str → ℕ → ℂ}
    (h : Trapped env v (chainParts n k top btm) (chainConns n k top btm) wl A B) :
    ∀ q ∈ chainParts n k top btm, ∀ i < q.2.n, A q.1 i = 0 := by
  obtain ⟨ms, mt, m1, m2, mc, mtop, mbtm⟩ := parts_in n k top btm
  obtain ⟨fc, fw⟩ := free_parts env v hf
  obtain ⟨js, jt, jl, jr, jf1, jf2⟩ := chain_joins n k top btm
  have htop : ∀ i ≤ n, B (topN i) 0 = (top i).amp wl * A (topN i) 1 ∧ B (topN i) 1 = (top i).amp wl * A (topN i) 0 := by
    intro i hi
    obtain ⟨e0, e1⟩ := wg_scatter (top i) wl (A (topN i))
    exact ⟨(h.scattered _ (mtop i hi) (fw _) (0 : Fin 2)).trans e0, (h.scattered _ (mtop i hi) (fw _) (1 : Fin 2)).trans e1⟩
  have hbtm : ∀ i ≤ n, B (btmN i) 0 = (btm i).amp wl * A (btmN i) 1 ∧ B (btmN i) 1 = (btm i).amp wl * A (btmN i) 0 := by
    intro i hi
    obtain ⟨e0, e1⟩ := wg_scatter (btm i) wl (A (btmN i))
    exact ⟨(h.scattered _ (mbtm i hi) (fw _) (0 : Fin 2)).trans e0, (h.scattered _ (mbtm i hi) (fw _) (1 : Fin 2)).trans e1⟩
  have hE : Eqs n k top btm wl A B := by
    refine ⟨fun i hi => ?_, fun i hi => htop i hi.le, fun i hi => hbtm i hi.le, fun i hi => ?_, fun i hi => ?_, fun i hi => ?_, fun i hi => ?_⟩
    · obtain ⟨e0, e1, e2, e3⟩ := coupler_scatter (k i) wl (A (dcN i))
      exact ⟨(h.scattered _ (mc i hi) (fc _) (0 : Fin 4)).trans e0, (h.scattered _ (mc i hi) (fc _) (1 : Fin 4)).trans e1,
        (h.scattered _ (mc i hi) (fc _) (2 : Fin 4)).trans e2, (h.scattered _ (mc i hi) (fc _) (3 : Fin 4)).trans e3⟩
    · exact ⟨h.joined _ (mc i hi.le) (fc _) _ _ _ (jl i hi.le).1, h.joined _ (mtop i hi.le) (fw _) _ _ _ (joined_symm (jl i hi.le).1)⟩
    · exact ⟨h.joined _ (mtop i hi.le) (fw _) _ _ _ (jr i hi).1, h.joined _ (mc (i + 1) hi) (fc _) _ _ _ (joined_symm (jr i hi).1)⟩
    · exact ⟨h.joined _ (mc i hi.le) (fc _) _ _ _ (jl i hi.le).2, h.joined _ (mbtm i hi.le) (fw _) _ _ _ (joined_symm (jl i hi.le).2)⟩
    · exact ⟨h.joined _ (mbtm i hi.le) (fw _) _ _ _ (jr i hi).2, h.joined _ (mc (i + 1) hi) (fc _) _ _ _ (joined_symm (jr i hi).2)⟩
  have zs := h.held _ ms (.inl rfl) 0 (by decide)
  have zt := h.held _ mt (.inr (.inl rfl)) 0 (by decide)
  have z1 := h.held _ m1 (.inr (.inl rfl)) 0 (by decide : 0 < Part.detector.n)
  have z2 := h.held _ m2 (.inr (.inl rfl)) 0 (by decide : 0 < Part.detector.n)
  have t1 := (h.joined _ (mtop n le_rfl) (fw _) _ _ _ jf1).trans z1.2
  have t2 := (h.joined _ (mbtm n le_rfl) (fw _) _ _ _ jf2).trans z2.2
  have c0 := (h.joined _ (mc 0 (Nat.zero_le n)) (fc _) _ _ _ js).trans zs.2
  have c1 := (h.joined _ (mc 0 (Nat.zero_le n)) (fc _) _ _ _ jt).trans zt.2
  have c3 : A (dcN n) 3 = 0 := (h.joined _ (mc n le_rfl) (fc _) _ _ _ (jl n le_rfl).1).trans (by rw [(htop n le_rfl).1, t1, mul_zero])
  have c2 : A (dcN n) 2 = 0 := (h.joined _ (mc n le_rfl) (fc _) _ _ _ (jl n le_rfl).2).trans (by rw [(hbtm n le_rfl).1, t2, mul_zero])
  have Z := hE.quiet hk hM c0 c1 c2 c3
  intro q hq i hi
  rcases mem_parts.mp hq with rfl | rfl | rfl | rfl | ⟨l, hl, rfl⟩ | ⟨l, hl, rfl⟩ | ⟨l, hl, rfl⟩
  · exact (h.held _ hq (.inl rfl) i hi).1
  · exact (h.held _ hq (.inr (.inl rfl)) i hi).1
  · exact (h.held _ hq (.inr (.inl rfl)) i hi).1
  · exact (h.held _ hq (.inr (.inl rfl)) i hi).1
  · exact (Z l hl i hi).1
  · have : i = 0 ∨ i = 1 := by simp only [Wg.part, Part.n] at hi; omega
    rcases this with rfl | rfl
    · exact (h.joined _ (mtop l hl) (fw _) _ _ _ (joined_symm (jl l hl).1)).trans (Z l hl 3 (by omega)).2
    · rcases Nat.lt_or_ge l n with hl' | hl'
      · exact (hE.j4 l hl').1.trans (Z (l + 1) hl' 0 (by omega)).2
      · rw [show l = n by omega]; exact t1
  · have : i = 0 ∨ i = 1 := by simp only [Wg.part, Part.n] at hi; omega
    rcases this with rfl | rfl
    · exact (h.joined _ (mbtm l hl) (fw _) _ _ _ (joined_symm (jl l hl).2)).trans (Z l hl 2 (by omega)).2
    · rcases Nat.lt_or_ge l n with hl' | hl'
      · exact (hE.j6 l hl').1.trans (Z (l + 1) hl' 1 (by omega)).2
      · rw [show l = n by omega]; exact t2

variable {wl : ℝ} {c r c' r' : ℕ → ℂ}

/-- What enters a port of these waves left the port connected to it. -/
theorem chain_wave (hs : r' n = 0) (hr : r (n + 1) = 0) (thr drp src : ℂ) (h0 : c 0 = src) (a : Str) (i : ℕ) (b : Str) (j : ℕ)
    (hj : PT.Spec.Joined (chainConns n k top btm) a i b j) :
    ((a ∈ ["source".toList, "through".toList, "drop".toList, "add".toList] ∧ ¬(thr = r 0 ∧ drp = c (n + 1))) ∨
      waveA (n + 1) thr drp c r c' r' a i = waveB (n + 1) src c r c' r' b j) := by
  obtain ⟨as, at0, adr, aa, ad, at', ab⟩ := look_spec (n + 1) (fun _ : ℕ => (0 : ℂ)) (fun _ => 0) (fun _ => thr) (fun _ => drp) (fun _ => 0)
    (fun i p => if i % 2 = 0 then [c i, 0, 0, r' i].getD p 0 else [0, c i, r' i, 0].getD p 0)
    (fun i p => if i % 2 = 0 then [0, r (i + 1)].getD p 0 else [c' i, 0].getD p 0)
    (fun i p => if i % 2 = 0 then [c' i, 0].getD p 0 else [0, r (i + 1)].getD p 0)
  obtain ⟨bs, bt0, bdr, ba, bd, bt, bb⟩ := look_spec (n + 1) (fun _ : ℕ => (0 : ℂ)) (fun _ => src) (fun _ => 0) (fun _ => 0) (fun _ => 0)
    (fun i p => if i % 2 = 0 then [0, r i, c' i, 0].getD p 0 else [r i, 0, 0, c' i].getD p 0)
    (fun i p => if i % 2 = 0 then [r' i, 0].getD p 0 else [0, c (i + 1)].getD p 0)
    (fun i p => if i % 2 = 0 then [0, c (i + 1)].getD p 0 else [r' i, 0].getD p 0)
  have z := Nat.zero_le (n + 1)
  have ln := Nat.lt_succ_self n
  refine chain_elim (k := k) (top := top) (btm := btm)
    (P := fun a i b j => (a ∈ ["source".toList, "through".toList, "drop".toList, "add".toList] ∧
    ¬(thr = r 0 ∧ drp = c (n + 1))) ∨ waveA (n + 1) thr drp c r c' r' a i = waveB (n + 1) src c r c' r' b j) ⟨?_, ?_⟩ ⟨?_, ?_⟩
    (fun l hl => ⟨?_, ?_⟩) (fun l hl => ⟨?_, ?_⟩) (fun l hl => ⟨?_, ?_⟩) (fun l hl => ⟨?_, ?_⟩) ⟨?_, ?_⟩ ⟨?_, ?_⟩ a i b j hj <;>
    unfold waveA waveB
  · exact .inr (by rw [as, bd 0 z]; simp)
  · exact .inr (by rw [ad 0 z, bs]; simp [h0])
  · by_cases h : thr = r 0 ∧ drp = c (n + 1)
    · exact .inr (by rw [at0, bd 0 z]; simp [h.1])
    · exact .inl ⟨by simp, h⟩
  · exact .inr (by rw [ad 0 z, bt0]; simp)
  · exact .inr (by rw [ad l (by omega), bt l (by omega)]; by_cases hp : l % 2 = 0 <;> simp [hp])
  · exact .inr (by rw [at' l (by omega), bd l (by omega)]; by_cases hp : l % 2 = 0 <;> simp [hp])
  · refine .inr ?_
    rw [at' l (by omega), bd (l + 1) (by omega)]
    rcases Nat.mod_two_eq_zero_or_one l with hp | hp
    · simp [hp, show (l + 1) % 2 = 1 by omega]
    · simp [hp, show (l + 1) % 2 = 0 by omega]
  · refine .inr ?_
    rw [ad (l + 1) (by omega), bt l (by omega)]
    rcases Nat.mod_two_eq_zero_or_one l with hp | hp
    · simp [hp, show (l + 1) % 2 = 1 by omega]
    · simp [hp, show (l + 1) % 2 = 0 by omega]
  · exact .inr (by rw [ad l (by omega), bb l (by omega)]; by_cases hp : l % 2 = 0 <;> simp [hp])
  · exact .inr (by rw [ab l (by omega), bd l (by omega)]; by_cases hp : l % 2 = 0 <;> simp [hp])
  · refine .inr ?_
    rw [ab l (by omega), bd (l + 1) (by omega)]
    rcases Nat.mod_two_eq_zero_or_one l with hp | hp
    · simp [hp, show (l + 1) % 2 = 1 by omega]
    · simp [hp, show (l + 1) % 2 = 0 by omega]
  · refine .inr ?_
    rw [ad (l + 1) (by omega), bb l (by omega)]
    rcases Nat.mod_two_eq_zero_or_one l with hp | hp
    · simp [hp, show (l + 1) % 2 = 1 by omega]
    · simp [hp, show (l + 1) % 2 = 0 by omega]
  · refine .inr ?_
    rw [at' n ln]
    unfold fin1
    rcases Nat.mod_two_eq_zero_or_one n with hp | hp
    · rw [if_neg (by omega), ba]; simp [hp, hr]
    · rw [if_pos hp, bdr]; simp [hp]
  · unfold fin1
    rw [bt n ln]
    rcases Nat.mod_two_eq_zero_or_one n with hp | hp
    · rw [if_neg (by omega), aa]; simp [hp]
    · rw [if_pos hp, adr]
      by_cases h : thr = r 0 ∧ drp = c (n + 1)
      · exact .inr (by simp [hp, h.2])
      · exact .inl ⟨by simp, h⟩
  · refine .inr ?_
    rw [ab n ln]
    unfold fin2
    rcases Nat.mod_two_eq_zero_or_one n with hp | hp
    · rw [if_neg (by omega), bdr]; simp [hp]
    · rw [if_pos hp, ba]; simp [hp, hr]
  · unfold fin2
    rw [bb n ln]
    rcases Nat.mod_two_eq_zero_or_one n with hp | hp
    · rw [if_neg (by omega), adr]
      by_cases h : thr = r 0 ∧ drp = c (n + 1)
      · exact .inr (by simp [hp, h.2])
      · exact .inl ⟨by simp, h⟩
    · rw [if_pos hp, aa]; exact .inr (by simp [hp])

theorem more_ends (hF : Fam (tau (oneMore n k)) (kap (oneMore n k)) (offP top btm wl 0) (onP top btm wl 0) 0 (n + 1) c r c' r') :
    r (n + 1) = 0 ∧ r' n = 0 ∧ c' (n + 1) = Complex.I * c (n + 1) := by
  have h1 := hF.stay (n + 1) (Nat.zero_le _) le_rfl
  have h2 := hF.back n (Nat.zero_le _) (Nat.lt_succ_self n)
  have h3 := hF.pass (n + 1) (Nat.zero_le _) le_rfl
  rw [tau, kap, oneMore_last, hF.stop] at h1 h3
  simp only [sub_self, Real.sqrt_zero, Complex.ofReal_zero, zero_mul, mul_zero, add_zero, Real.sqrt_one, Complex.ofReal_one,
    mul_one] at h1 h3
  rw [h1, mul_zero] at h2
  exact ⟨h1, h2, h3⟩

theorem fin_wave (n : ℕ) (thr drp src : ℂ) (c r c' r' : ℕ → ℂ) (i : ℕ) :
    (waveA (n + 1) thr drp c r c' r' (fin1 n) i = if n % 2 = 1 then drp else 0) ∧
    (waveA (n + 1) thr drp c r c' r' (fin2 n) i = if n % 2 = 1 then 0 else drp) ∧
    waveB (n + 1) src c r c' r' (fin1 n) i = 0 ∧ waveB (n + 1) src c r c' r' (fin2 n) i = 0 := by
  obtain ⟨-, -, e3, e4, -, -, e7, e8⟩ := wave_ends (n + 1) thr drp src c r c' r' i
  unfold fin1 fin2
  split
  · exact ⟨e3, e4, e7, e8⟩
  · exact ⟨e4, e3, e8, e7⟩

theorem chain_steady (hF : Fam (tau (oneMore n k)) (kap (oneMore n k)) (offP top btm wl 0) (onP top btm wl 0) 0 (n + 1) c r c' r')
    (src : ℂ) (h0 : c 0 = src) (emit : Str → ℂ) (he : emit "source".toList = src) :
    Steady (chainParts n k top btm) (chainConns n k top btm) wl emit (waveA (n + 1) (r 0) (c (n + 1)) c r c' r')
      (waveB (n + 1) src c r c' r') := by
  obtain ⟨w1, w2, w3⟩ := wave_inner hF (r 0) (c (n + 1)) src
  obtain ⟨g1, g2, -⟩ := more_ends hF
  refine ⟨fun a i b j hj => ?_, fun q hq i => ?_⟩
  · rcases chain_wave g2 g1 (r 0) (c (n + 1)) src h0 a i b j hj with ⟨-, h⟩ | h
    · exact absurd ⟨rfl, rfl⟩ h
    · exact h
  · obtain ⟨-, -, -, -, e5, e6, -, -⟩ := wave_ends (n + 1) (r 0) (c (n + 1)) src c r c' r' i
    obtain ⟨-, -, e7, e8⟩ := fin_wave n (r 0) (c (n + 1)) src c r c' r' i
    rcases mem_parts.mp hq with rfl | rfl | rfl | rfl | ⟨l, hl, rfl⟩ | ⟨l, hl, rfl⟩ | ⟨l, hl, rfl⟩
    · refine e5.trans ?_
      rw [end_scatter .source wl (.inl rfl) i, zero_add, ← he]
      rfl
    · refine e6.trans ?_
      rw [end_scatter .detector wl (.inr rfl) i]
      simp [isSource]
    · refine e7.trans ?_
      rw [end_scatter .detector wl (.inr rfl) i]
      simp [isSource]
    · refine e8.trans ?_
      rw [end_scatter .detector wl (.inr rfl) i]
      simp [isSource]
    · have := w1 l (by omega) i
      rw [oneMore_le hl] at this
      exact this.trans (add_zero _).symm
    · exact (w2 l (by omega) i).trans (add_zero _).symm
    · exact (w3 l (by omega) i).trans (add_zero _).symm

theorem chain_trapped {env : SimEnv} {v : ℝ} (hf : env.freqdomain = true)
    (hF : Fam (tau (oneMore n k)) (kap (oneMore n k)) (offP top btm wl 0) (onP top btm wl 0) 0 (n + 1) c r c' r') (h0 : c 0 = 0) :
    Trapped env v (chainParts n k top btm) (chainConns n k top btm) wl (waveA (n + 1) 0 0 c r c' r') (waveB (n + 1) 0 c r c' r') := by
  obtain ⟨w1, w2, w3⟩ := wave_inner hF 0 0 0
  obtain ⟨g1, g2, -⟩ := more_ends hF
  obtain ⟨fc, fw⟩ := free_parts env v hf
  have hm : ∀ q ∈ chainParts n k top btm, ¬Holds env v q.2 → q.1 ∉ ["source".toList, "through".toList, "drop".toList, "add".toList] := by
    intro q hq hh hx
    have : ∀ x : Str, (x.take 2 = ['d', 'c'] ∨ x.take 2 = ['t', 'o'] ∨ x.take 2 = ['b', 't']) →
        x ∉ ["source".toList, "through".toList, "drop".toList, "add".toList] := by
      intro x hk hx
      obtain ⟨h1, h2, h3, h4⟩ := plain_ne x hk
      simp only [List.mem_cons, List.not_mem_nil, or_false] at hx
      rcases hx with h | h | h | h
      · exact h1 h.symm
      · exact h2 h.symm
      · exact h3 h.symm
      · exact h4 h.symm
    rcases mem_parts.mp hq with rfl | rfl | rfl | rfl | ⟨l, hl, rfl⟩ | ⟨l, hl, rfl⟩ | ⟨l, hl, rfl⟩
    · exact hh (.inl rfl)
    · exact hh (.inr (.inl rfl))
    · exact hh (.inr (.inl rfl))
    · exact hh (.inr (.inl rfl))
    · exact this _ (.inl (dc_key l)) hx
    · exact this _ (.inr (.inl (top_key l))) hx
    · exact this _ (.inr (.inr (btm_key l))) hx
  refine ⟨fun q hq hh i hi => ?_, fun q hq hh i b j hj => ?_, fun q hq hh i => ?_⟩
  · obtain ⟨e1, e2, -, -, e5, e6, -, -⟩ := wave_ends (n + 1) 0 0 0 c r c' r' i
    obtain ⟨e3, e4, e7, e8⟩ := fin_wave n 0 0 0 c r c' r' i
    rw [ite_self] at e3 e4
    rcases mem_parts.mp hq with rfl | rfl | rfl | rfl | ⟨l, hl, rfl⟩ | ⟨l, hl, rfl⟩ | ⟨l, hl, rfl⟩
    · exact ⟨e1, e5⟩
    · exact ⟨e2, e6⟩
    · exact ⟨e3, e7⟩
    · exact ⟨e4, e8⟩
    · exact absurd hh (fc _)
    · exact absurd hh (fw _)
    · exact absurd hh (fw _)
  · rcases chain_wave g2 g1 0 0 0 h0 q.1 i b j hj with ⟨h, -⟩ | h
    · exact absurd h (hm q hq hh)
    · exact h
  · rcases mem_parts.mp hq with rfl | rfl | rfl | rfl | ⟨l, hl, rfl⟩ | ⟨l, hl, rfl⟩ | ⟨l, hl, rfl⟩
    · exact absurd (.inl rfl) hh
    · exact absurd (.inr (.inl rfl)) hh
    · exact absurd (.inr (.inl rfl)) hh
    · exact absurd (.inr (.inl rfl)) hh
    · have := w1 l (by omega) i
      rw [oneMore_le hl] at this
      exact this
    · exact w2 l (by omega) i
    · exact w3 l (by omega) i

/-- The light behind coupler `i` enters one of the waveguides. -/
theorem wave_guide (n : ℕ) (thr drp : ℂ) (c r c' r' : ℕ → ℂ) :
    waveA (n + 1) thr drp c r c' r' (if n % 2 = 0 then btmN n else topN n) 0 = c' n := by
  obtain ⟨-, -, -, -, -, at', ab⟩ := look_spec (n + 1) (fun _ : ℕ => (0 : ℂ)) (fun _ => 0) (fun _ => thr) (fun _ => drp) (fun _ => 0)
    (fun i p => if i % 2 = 0 then [c i, 0, 0, r' i].getD p 0 else [0, c i, r' i, 0].getD p 0)
    (fun i p => if i % 2 = 0 then [0, r (i + 1)].getD p 0 else [c' i, 0].getD p 0)
    (fun i p => if i % 2 = 0 then [c' i, 0].getD p 0 else [0, r (i + 1)].getD p 0)
  unfold waveA
  split
  · rename_i h
    rw [ab n (Nat.lt_succ_self n)]
    simp [h]
  · rename_i h
    rw [at' n (Nat.lt_succ_self n)]
    simp [h]

/-- The channels of the terminated network. -/
theorem chain_channels (n : ℕ) (k : ℕ → ℝ) (top btm : ℕ → Wg) :
    emittersIn ((chainParts n k top btm).map Prod.fst) (chainParts n k top btm) = ["source".toList] ∧
    listenersIn ((chainParts n k top btm).map Prod.fst) (chainParts n k top btm) = ["through".toList, fin1 n, fin2 n] := by
  have hnd := chain_names_nodup n k top btm
  have hgen : ∀ f : Part → Bool, ((chainParts n k top btm).map Prod.fst).filter
      (fun x => (chainParts n k top btm).any fun q => decide (q.1 = x) && f q.2) =
      ((chainParts n k top btm).filter fun q => f q.2).map Prod.fst := by
    intro f
    rw [List.filter_map]
    congr 1
    apply List.filter_congr
    intro q hq
    simp only [Function.comp_apply]
    rw [Bool.eq_iff_iff, List.any_eq_true]
    constructor
    · rintro ⟨p, hp, h⟩
      simp only [Bool.and_eq_true, decide_eq_true_eq] at h
      have : p = q := List.inj_on_of_nodup_map hnd hp hq h.1
      rw [← this]
      exact h.2
    · intro h
      exact ⟨q, hq, by simp [h]⟩
  have hring : ∀ f : Part → Bool, (∀ i, f (.coupler (k i)) = false) → (∀ i, f (top i).part = false) → (∀ i, f (btm i).part = false) →
      (ringParts n k top btm).filter (fun q => f q.2) = [] := by
    intro f h1 h2 h3
    rw [List.filter_eq_nil_iff]
    intro q hq
    unfold ringParts at hq
    obtain ⟨i, -, hq⟩ := List.mem_flatMap.mp hq
    unfold layerSheet at hq
    split at hq <;> simp only [List.mem_cons, List.not_mem_nil, or_false] at hq <;> rcases hq with rfl | rfl | rfl <;> simp [h1, h2, h3]
  unfold emittersIn listenersIn
  rw [hgen isSource, hgen isDetector]
  unfold chainParts
  simp only [List.filter_cons, List.filter_append]
  rw [hring isSource (fun _ => rfl) (fun _ => rfl) (fun _ => rfl), hring isDetector (fun _ => rfl) (fun _ => rfl) (fun _ => rfl)]
  exact ⟨rfl, rfl⟩

end RingChain

open RingChain Crow

/-- C123. A ring network of width 2 with couplers in the place of the interferometers is a chain of `capacity // 2` coupled
rings (C95) with a waveguide behind it. With an odd number of rings the light that has passed them leaves at the third port
(`term_drop` of the notebook), with an even number at the fourth. -/
theorem C123_chain (capacity : ℕ) (hc : 2 ≤ capacity) (k : ℕ → ℝ) (hk : ∀ i ≤ capacity / 2, 0 ≤ k i ∧ k i ≤ 1) (wg₀ wg₁ : ℕ → Wg)
    (newName : Str) : ∃ d d', ring 2 capacity (ringCouplers k) (ringWaveguides wg₀ wg₁) = .ok d ∧
      termDev newName ringCls d notebookTerms = .ok d' ∧ ∀ (W B : Type) (v : ℝ) (wl : W → ℝ) (env : SimEnv),
      env.freqdomain = true → env.t.length = 1 →
      ((∀ w, (crowAt (capacity / 2) k wg₀ wg₁ (wl w)).1 ≠ 0) → ∃ r, initNet (d'.plant v wl) env = .ok (some r) ∧
        ∀ (acts : List (Actor W B)) (src : ℕ → ℕ → W → B → ℝ × ℝ), ∃ o, forwardReduced r env acts src = .ok [o] ∧
          ∀ w b, (o w b).map asComplex =
            (crowAt (capacity / 2) k wg₀ wg₁ (wl w)).2 / (crowAt (capacity / 2) k wg₀ wg₁ (wl w)).1 * asComplex (src 0 0 w b) ::
            if capacity / 2 % 2 = 1 then
              [ringPass (capacity / 2) k wg₀ wg₁ (wl w) / (crowAt (capacity / 2) k wg₀ wg₁ (wl w)).1 * asComplex (src 0 0 w b), 0]
            else
              [0, ringPass (capacity / 2) k wg₀ wg₁ (wl w) / (crowAt (capacity / 2) k wg₀ wg₁ (wl w)).1 * asComplex (src 0 0 w b)]) ∧
      ((∃ w, (crowAt (capacity / 2) k wg₀ wg₁ (wl w)).1 = 0) → initNet (d'.plant v wl) env = .error .runtimeError) := by
  obtain ⟨d, hd, hD⟩ := ring_drawn (capacity / 2) k wg₀ wg₁ capacity hc rfl
  obtain ⟨d', hd', hD'⟩ := closed_drawn (capacity / 2) k wg₀ wg₁ newName d hD
  refine ⟨d, d', hd, hd', fun W B v wl env hf ht1 => ?_⟩
  generalize capacity / 2 = n at *
  obtain ⟨ms, mt, m1, m2, mc, mtop, mbtm⟩ := parts_in n k wg₀ wg₁
  have hP := drawn_placed hD' rfl (chain_names_nodup n k wg₀ wg₁)
  have hsz : ∀ q ∈ chainParts n k wg₀ wg₁, 0 < q.2.n := by
    intro q hq
    rcases mem_parts.mp hq with rfl | rfl | rfl | rfl | ⟨l, hl, rfl⟩ | ⟨l, hl, rfl⟩ | ⟨l, hl, rfl⟩ <;> simp [Wg.part]
  have hinit := placed_initialized hP hsz v wl env ⟨_, ms, .inl rfl⟩
  have hk' := oneMore_range hk
  have hR := fun w => ratio_rec (tau (oneMore n k)) _ _ _ (paths wg₀ wg₁ (wl w) 0) (n + 1)
  refine ⟨fun hM => ?_, fun ⟨w, hw⟩ => ?_⟩
  · obtain ⟨r, hr⟩ := hinit.1 fun w A B hT => chain_quiet hf hk (hM w) hT
    refine ⟨r, hr, fun acts src => ?_⟩
    obtain ⟨o, ho, H⟩ := placed_frequency hP hsz ⟨_, mt, rfl⟩ v wl env hf ht1 r hr acts src
    refine ⟨o, ho, fun w b => ?_⟩
    obtain ⟨-, H⟩ := H w b
    obtain ⟨c, r0, c', r', hF, hc, hr0, hc'⟩ := fam_exists (κ := kap (oneMore n k)) (hR w)
      (fun i hi => sq_sum (hk' i hi).1 (hk' i hi).2) 0 (Nat.zero_le (n + 1)) (asComplex (src 0 0 w b) / (crowAt n k wg₀ wg₁ (wl w)).1)
    have h0 : c 0 = asComplex (src 0 0 w b) := by
      rw [hc]
      show _ / _ * (crowAt (n + 1) (oneMore n k) wg₀ wg₁ (wl w)).1 = _
      rw [at_more]
      exact div_mul_cancel₀ _ (hM w)
    have h1 : r0 0 = (crowAt n k wg₀ wg₁ (wl w)).2 / (crowAt n k wg₀ wg₁ (wl w)).1 * asComplex (src 0 0 w b) := by
      rw [hr0]
      show _ / _ * (crowAt (n + 1) (oneMore n k) wg₀ wg₁ (wl w)).2 = _
      rw [at_more]
      ring
    have h2 : c (n + 1) = ringPass n k wg₀ wg₁ (wl w) / (crowAt n k wg₀ wg₁ (wl w)).1 * asComplex (src 0 0 w b) := by
      have e := (more_ends hF).2.2
      rw [hc', pass_eq, pass_more] at e
      have := mul_left_cancel₀ Complex.I_ne_zero (show Complex.I * c (n + 1) = Complex.I *
        (ringPass n k wg₀ wg₁ (wl w) / (crowAt n k wg₀ wg₁ (wl w)).1 * asComplex (src 0 0 w b)) by rw [← e]; ring)
      exact this
    have hS := chain_steady hF _ h0 (fun x => asComplex (src 0 ((emittersIn ((chainParts n k wg₀ wg₁).map Prod.fst)
      (chainParts n k wg₀ wg₁)).idxOf x) w b)) (by
      rw [(chain_channels n k wg₀ wg₁).1]
      rfl)
    rw [H _ _ hS, (chain_channels n k wg₀ wg₁).2]
    obtain ⟨-, e2, -⟩ := wave_ends (n + 1) (r0 0) (c (n + 1)) 0 c r0 c' r' 0
    obtain ⟨e3, e4, -⟩ := fin_wave n (r0 0) (c (n + 1)) 0 c r0 c' r' 0
    simp only [List.map_cons, List.map_nil]
    rw [e2, e3, e4, h1, h2]
    split <;> rfl
  · obtain ⟨c, r0, c', r', hF, hc, i, hi, hne⟩ := fam_trapped (κ := kap (oneMore n k)) (hR w)
      (fun i hi => sq_sum (hk' i hi).1 (hk' i hi).2) (fun i hi h => sq_one (hk' i hi).1 h) (fun i _ => off_ne _ _ i)
      (fun i _ => on_ne _ _ i) (by
        show (crowAt (n + 1) (oneMore n k) wg₀ wg₁ (wl w)).1 = 0
        rw [at_more]; exact hw)
    refine hinit.2 w _ _ (chain_trapped hf hF hc) ?_
    obtain ⟨w1, w2⟩ := wave_dc (n + 1) 0 0 c r0 c' r' hi
    rcases Nat.lt_or_ge n i with h | h
    · obtain rfl : i = n + 1 := by omega
      have hcn : c (n + 1) ≠ 0 := by
        rcases hne with h | h
        · exact h
        · exact absurd hF.stop h
      have hc'n : c' n ≠ 0 := by
        intro h0
        have := hF.next n (Nat.zero_le n) (Nat.lt_succ_self n)
        rw [h0, mul_zero] at this
        exact hcn this
      have hg := wave_guide n 0 0 c r0 c' r'
      split at hg
      · exact ⟨_, mbtm n le_rfl, 0, by simp [Wg.part], by rw [hg]; exact hc'n⟩
      · exact ⟨_, mtop n le_rfl, 0, by simp [Wg.part], by rw [hg]; exact hc'n⟩
    · rcases hne with hne | hne
      · exact ⟨_, mc i h, i % 2, show i % 2 < 4 by omega, by rw [w1]; exact hne⟩
      · exact ⟨_, mc i h, 3 - i % 2, show 3 - i % 2 < 4 by omega, by rw [w2]; exact hne⟩

/-- C123. The ring network of the notebook is the add-drop filter of the notebook before: they can be simulated at the same
wavelengths and detect the same, apart from the waveguide in front of `term_drop`. -/
theorem C123_add_drop (k : ℕ → ℝ) (hk : ∀ i ≤ 1, 0 ≤ k i ∧ k i ≤ 1) (wg₀ wg₁ : ℕ → Wg) (newName : Str) :
    ∃ d d' a, ring 2 3 (ringCouplers k) (ringWaveguides wg₀ wg₁) = .ok d ∧ termDev newName ringCls d notebookTerms = .ok d' ∧
      LinkedNet (addDropModules (k 0) (k 1) (wg₁ 0) (wg₀ 0)) addDropLinks a ∧
      ∀ (W B : Type) (v : ℝ) (wl : W → ℝ) (env : SimEnv), env.freqdomain = true → env.t.length = 1 →
        (initNet (d'.plant v wl) env = .error .runtimeError ∧ initNet (a.plant v wl) env = .error .runtimeError) ∨
        ∃ r q, initNet (d'.plant v wl) env = .ok (some r) ∧ initNet (a.plant v wl) env = .ok (some q) ∧
          ∀ (acts : List (Actor W B)) (src : ℕ → ℕ → W → B → ℝ × ℝ), ∃ o u, forwardReduced r env acts src = .ok [o] ∧
            forwardReduced q env acts src = .ok [u] ∧ ∀ w b, ∃ drop pass add, (u w b).map asComplex = [drop, pass, add] ∧
              (o w b).map asComplex = [pass, (wg₀ 1).amp (wl w) * drop, add] := by
  obtain ⟨d, d', hd, hd', H⟩ := C123_chain 3 (by omega) k hk wg₀ wg₁ newName
  obtain ⟨a, ha, G⟩ := C89_add_drop (k 0) (k 1) (hk 0 (by omega)) (wg₁ 0) (wg₀ 0)
  refine ⟨d, d', a, hd, hd', ha, fun W B v wl env hf ht => ?_⟩
  obtain ⟨H1, H2⟩ := H W B v wl env hf ht
  obtain ⟨G1, G2⟩ := G W B v wl env hf ht
  rw [show 3 / 2 = 1 from rfl] at H1 H2
  have hat : ∀ w, crowAt 1 k wg₀ wg₁ w = (1 - √(1 - k 0) * √(1 - k 1) * (wg₁ 0).amp w * (wg₀ 0).amp w,
      √(1 - k 0) - √(1 - k 1) * (wg₁ 0).amp w * (wg₀ 0).amp w) := by
    intro w
    simp only [crowAt, crowRatio, Prod.mk.injEq]
    constructor <;> ring
  have hps : ∀ w, ringPass 1 k wg₀ wg₁ w = (wg₀ 1).amp w * -(√(k 0) * √(k 1) * (wg₁ 0).amp w) := by
    intro w
    simp only [ringPass, crowPass, Finset.prod_range_succ, Finset.prod_range_zero, one_mul, Nat.zero_mod, if_true]
    rw [if_neg (by decide)]
    linear_combination ((wg₀ 1).amp w * (√(k 0) * √(k 1) * (wg₁ 0).amp w) : ℂ) * Complex.I_mul_I
  by_cases hc : ∀ w, √(1 - k 0) * √(1 - k 1) * (wg₁ 0).amp (wl w) * (wg₀ 0).amp (wl w) ≠ 1
  · right
    obtain ⟨r, hr, H⟩ := H1 fun w => by
      rw [hat]
      exact sub_ne_zero.mpr (Ne.symm (hc w))
    obtain ⟨q, hq, G⟩ := G1 hc
    refine ⟨r, q, hr, hq, fun acts src => ?_⟩
    obtain ⟨o, ho, H⟩ := H acts src
    obtain ⟨u, hu, G⟩ := G acts src
    refine ⟨o, u, ho, hu, fun w b => ⟨_, _, _, G w b, ?_⟩⟩
    rw [H w b, if_pos rfl, hat, hps]
    simp only [List.cons.injEq, and_true, true_and]
    ring
  · left
    push Not at hc
    obtain ⟨w, hw⟩ := hc
    exact ⟨H2 ⟨w, by rw [hat]; exact sub_eq_zero.mpr hw.symm⟩, G2 ⟨w, hw⟩⟩

/-- The network of the notebook: couplers of 0.3, a ring of 50 µm. Nothing arrives at `term_add`, and the network can be simulated at
every wavelength. -/
example : ∃ d d', ring 2 3 (ringCouplers fun _ => 3 / 10) (ringWaveguides (fun _ => ⟨25e-6, 0, 2.86, 1.55e-6, 3.4, 0⟩)
      fun _ => ⟨25e-6, 0, 2.86, 1.55e-6, 3.4, 0⟩) = .ok d ∧ termDev [] ringCls d notebookTerms = .ok d' ∧
    ∀ env : SimEnv, env.freqdomain = true → env.t.length = 1 → ∃ r, initNet (d'.plant 299792458 fun w : ℝ => w) env = .ok (some r) ∧
      ∀ src : ℕ → ℕ → ℝ → Unit → ℝ × ℝ, ∃ o, forwardReduced r env [] src = .ok [o] ∧
        ∀ w b, ((o w b).map asComplex)[2]? = some 0 ∧ ∃ p q, (o w b).map asComplex = [p, q, 0] ∧
          ‖p‖ ^ 2 + ‖q‖ ^ 2 = ‖asComplex (src 0 0 w b)‖ ^ 2 := by
  set g : ℕ → Wg := fun _ => ⟨25e-6, 0, 2.86, 1.55e-6, 3.4, 0⟩ with hg
  have hloss : ∀ i, (g i).loss * (g i).length = 0 := fun i => by simp [hg]
  obtain ⟨d, d', hd, hd', H⟩ := C123_chain 3 (by omega) (fun _ => 3 / 10) (fun _ _ => by norm_num) g g []
  refine ⟨d, d', hd, hd', fun env hf ht => ?_⟩
  have hM : ∀ w : ℝ, (crowAt (3 / 2) (fun _ => 3 / 10) g g w).1 ≠ 0 := fun w =>
    (C95_passive _ _ (fun _ _ => by norm_num) g g (fun i _ => by rw [hloss i]; simp) (fun _ _ => .inl (by norm_num)) w).1
  obtain ⟨r, hr, H⟩ := (H ℝ Unit 299792458 (fun w => w) env hf ht).1 hM
  refine ⟨r, hr, fun src => ?_⟩
  obtain ⟨o, ho, H⟩ := H [] src
  refine ⟨o, ho, fun w b => ?_⟩
  have e := H w b
  rw [if_pos rfl] at e
  refine ⟨by rw [e]; rfl, _, _, e, ?_⟩
  have hl := C95_lossless (3 / 2) (fun _ => 3 / 10) (fun _ _ => by norm_num) g g (fun i _ => ⟨hloss i, hloss i⟩) w (hM w)
  have h1 : ‖(g 1).amp w‖ = 1 := by
    have e0 : -((g 1).loss * (g 1).length) / 20 = 0 := by rw [hloss 1]; norm_num
    rw [wg_norm, e0, Real.rpow_zero]
  have hp : ‖ringPass (3 / 2) (fun _ => 3 / 10) g g w‖ = ‖crowPass (3 / 2) (fun _ => 3 / 10) g g w‖ := by
    unfold ringPass
    rw [if_neg (by decide), norm_mul, show 3 / 2 = 1 from rfl, h1, one_mul]
  rw [norm_mul, norm_mul, mul_pow, mul_pow, norm_div (ringPass _ _ _ _ _), hp, ← norm_div, ← add_mul, hl, one_mul]

end PT
