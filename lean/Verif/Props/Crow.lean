import Verif.Proof.CrowNet

/-!
# C95: coupled resonators, any number of them
-/

namespace PT
open Spec

namespace Crow

variable {n : ℕ} {k : ℕ → ℝ} {top btm : ℕ → Wg}

theorem joined_elim {P : Str → ℕ → Str → ℕ → Prop} (h1 : P "source".toList 0 (dcN 0) 0 ∧ P (dcN 0) 0 "source".toList 0)
    (h2 : P "through".toList 0 (dcN 0) 1 ∧ P (dcN 0) 1 "through".toList 0)
    (h3 : ∀ i < n, P (dcN i) 3 (topN i) 0 ∧ P (topN i) 0 (dcN i) 3)
    (h4 : ∀ i < n, P (topN i) 1 (dcN (i + 1)) 0 ∧ P (dcN (i + 1)) 0 (topN i) 1)
    (h5 : ∀ i < n, P (dcN i) 2 (btmN i) 0 ∧ P (btmN i) 0 (dcN i) 2)
    (h6 : ∀ i < n, P (btmN i) 1 (dcN (i + 1)) 1 ∧ P (dcN (i + 1)) 1 (btmN i) 1)
    (h7 : P (dcN n) 3 (fin1 n) 0 ∧ P (fin1 n) 0 (dcN n) 3) (h8 : P (dcN n) 2 (fin2 n) 0 ∧ P (fin2 n) 0 (dcN n) 2)
    (a : Str) (i : ℕ) (b : Str) (j : ℕ) (h : PT.Spec.Joined (conns n) a i b j) : P a i b j := by
  have key : ∀ {a : Str} {i : ℕ} {b : Str} {j : ℕ}, Conn.inner a (i : ℤ) b (j : ℤ) ∈ conns n → P a i b j ∧ P b j a i := by
    intro a i b j h
    have c0 : ∀ {x : ℕ}, (x : ℤ) = 0 → x = 0 := fun h => by exact_mod_cast h
    have c1 : ∀ {x : ℕ}, (x : ℤ) = 1 → x = 1 := fun h => by exact_mod_cast h
    have c2 : ∀ {x : ℕ}, (x : ℤ) = 2 → x = 2 := fun h => by exact_mod_cast h
    have c3 : ∀ {x : ℕ}, (x : ℤ) = 3 → x = 3 := fun h => by exact_mod_cast h
    rcases mem_conns.mp h with h | h | ⟨l, hl, h | h | h | h⟩ | h | h <;> simp only [Conn.inner.injEq] at h <;>
      obtain ⟨rfl, hi, rfl, hj⟩ := h
    · cases c0 hi; cases c0 hj; exact h1
    · cases c0 hi; cases c1 hj; exact h2
    · cases c3 hi; cases c0 hj; exact h3 l hl
    · cases c1 hi; cases c0 hj; exact h4 l hl
    · cases c2 hi; cases c0 hj; exact h5 l hl
    · cases c1 hi; cases c1 hj; exact h6 l hl
    · cases c3 hi; cases c0 hj; exact h7
    · cases c2 hi; cases c0 hj; exact h8
  rcases h with h | h
  · exact (key h).1
  · exact (key h).2

theorem joins (n : ℕ) : PT.Spec.Joined (conns n) "source".toList 0 (dcN 0) 0 ∧ PT.Spec.Joined (conns n) "through".toList 0 (dcN 0) 1 ∧
    (∀ i < n, PT.Spec.Joined (conns n) (dcN i) 3 (topN i) 0 ∧ PT.Spec.Joined (conns n) (topN i) 1 (dcN (i + 1)) 0 ∧
      PT.Spec.Joined (conns n) (dcN i) 2 (btmN i) 0 ∧ PT.Spec.Joined (conns n) (btmN i) 1 (dcN (i + 1)) 1) ∧
    PT.Spec.Joined (conns n) (dcN n) 3 (fin1 n) 0 ∧ PT.Spec.Joined (conns n) (dcN n) 2 (fin2 n) 0 :=
  ⟨.inl (mem_conns.mpr (.inl rfl)), .inl (mem_conns.mpr (.inr (.inl rfl))),
    fun i hi => ⟨.inl (mem_conns.mpr (.inr (.inr (.inl ⟨i, hi, .inl rfl⟩)))),
      .inl (mem_conns.mpr (.inr (.inr (.inl ⟨i, hi, .inr (.inl rfl)⟩)))),
      .inl (mem_conns.mpr (.inr (.inr (.inl ⟨i, hi, .inr (.inr (.inl rfl))⟩)))),
      .inl (mem_conns.mpr (.inr (.inr (.inl ⟨i, hi, .inr (.inr (.inr rfl))⟩))))⟩,
    .inl (mem_conns.mpr (.inr (.inr (.inr (.inl rfl))))), .inl (mem_conns.mpr (.inr (.inr (.inr (.inr rfl)))))⟩

/-- The path on which light of the family number `s` goes on from coupler `i`, and the path on which it comes back. -/
noncomputable def onP (top btm : ℕ → Wg) (wl : ℝ) (s i : ℕ) : ℂ := if (i + s) % 2 = 0 then (btm i).amp wl else (top i).amp wl
noncomputable def offP (top btm : ℕ → Wg) (wl : ℝ) (s i : ℕ) : ℂ := if (i + s) % 2 = 0 then (top i).amp wl else (btm i).amp wl

theorem wg_ne (g : Wg) (wl : ℝ) : g.amp wl ≠ 0 := by
  unfold Wg.amp
  refine mul_ne_zero (Complex.ofReal_ne_zero.mpr (Real.rpow_pos_of_pos (by norm_num) _).ne') (Complex.exp_ne_zero _)

theorem on_ne (wl : ℝ) (s i : ℕ) : onP top btm wl s i ≠ 0 := by
  unfold onP; split <;> exact wg_ne _ _

theorem off_ne (wl : ℝ) (s i : ℕ) : offP top btm wl s i ≠ 0 := by
  unfold offP; split <;> exact wg_ne _ _

theorem ratio_rec (τ u w z : ℕ → ℂ) (hz : ∀ i, u i * w i = z i) (n : ℕ) :
    Rec n τ (fun i => u i * w i) (fun i => (crowRatio τ z i (n - i)).1) (fun i => (crowRatio τ z i (n - i)).2) := by
  have e : (fun i => u i * w i) = z := funext hz
  rw [e]
  refine ⟨fun i hi => ?_, fun i hi => ?_, by simp [crowRatio], by simp [crowRatio]⟩
  · rw [show n - i = (n - (i + 1)) + 1 by omega]
    rfl
  · rw [show n - i = (n - (i + 1)) + 1 by omega]
    rfl

theorem paths (top btm : ℕ → Wg) (wl : ℝ) (s i : ℕ) :
    offP top btm wl s i * onP top btm wl s i = (top i).amp wl * (btm i).amp wl := by
  unfold offP onP
  split
  · rfl
  · exact mul_comm _ _

theorem sq_sum {x : ℝ} (h0 : 0 ≤ x) (h1 : x ≤ 1) : ((√(1 - x) : ℝ) : ℂ) ^ 2 + ((√x : ℝ) : ℂ) ^ 2 = 1 := by
  rw [← Complex.ofReal_pow, ← Complex.ofReal_pow, Real.sq_sqrt h0, Real.sq_sqrt (by linarith)]
  push_cast
  ring

theorem sq_one {x : ℝ} (h0 : 0 ≤ x) (h : ((√x : ℝ) : ℂ) = 0) : ((√(1 - x) : ℝ) : ℂ) = 1 := by
  rw [Complex.ofReal_eq_zero, Real.sqrt_eq_zero h0] at h
  rw [h]
  simp

noncomputable abbrev tau (k : ℕ → ℝ) (i : ℕ) : ℂ := ((√(1 - k i) : ℝ) : ℂ)
noncomputable abbrev kap (k : ℕ → ℝ) (i : ℕ) : ℂ := ((√(k i) : ℝ) : ℂ)

/-- The equations of the inner components. -/
structure Eqs (n : ℕ) (k : ℕ → ℝ) (top btm : ℕ → Wg) (wl : ℝ) (A B : Str → ℕ → ℂ) : Prop where
  dc : ∀ i ≤ n, B (dcN i) 0 = tau k i * A (dcN i) 1 + Complex.I * kap k i * A (dcN i) 2 ∧
    B (dcN i) 1 = tau k i * A (dcN i) 0 + Complex.I * kap k i * A (dcN i) 3 ∧
    B (dcN i) 2 = Complex.I * kap k i * A (dcN i) 0 + tau k i * A (dcN i) 3 ∧
    B (dcN i) 3 = Complex.I * kap k i * A (dcN i) 1 + tau k i * A (dcN i) 2
  top : ∀ i < n, B (topN i) 0 = (top i).amp wl * A (topN i) 1 ∧ B (topN i) 1 = (top i).amp wl * A (topN i) 0
  btm : ∀ i < n, B (btmN i) 0 = (btm i).amp wl * A (btmN i) 1 ∧ B (btmN i) 1 = (btm i).amp wl * A (btmN i) 0
  j3 : ∀ i < n, A (dcN i) 3 = B (topN i) 0 ∧ A (topN i) 0 = B (dcN i) 3
  j4 : ∀ i < n, A (topN i) 1 = B (dcN (i + 1)) 0 ∧ A (dcN (i + 1)) 0 = B (topN i) 1
  j5 : ∀ i < n, A (dcN i) 2 = B (btmN i) 0 ∧ A (btmN i) 0 = B (dcN i) 2
  j6 : ∀ i < n, A (btmN i) 1 = B (dcN (i + 1)) 1 ∧ A (dcN (i + 1)) 1 = B (btmN i) 1

/-- Light that goes on at every coupler and stays at every coupler. -/
theorem Eqs.fam {wl : ℝ} {A B : Str → ℕ → ℂ} (h : Eqs n k top btm wl A B) (h3 : A (dcN n) 3 = 0) (h2 : A (dcN n) 2 = 0) (s : ℕ) :
    Fam (tau k) (kap k) (offP top btm wl s) (onP top btm wl s) 0 n (fun i => A (dcN i) ((i + s) % 2))
      (fun i => B (dcN i) (1 - (i + s) % 2)) (fun i => B (dcN i) (2 + (i + s) % 2)) (fun i => A (dcN i) (3 - (i + s) % 2)) := by
  refine ⟨fun i _ hi => ?_, fun i _ hi => ?_, fun i _ hi => ?_, fun i _ hi => ?_, ?_⟩
  · obtain ⟨-, -, e2, e3⟩ := h.dc i hi
    rcases Nat.mod_two_eq_zero_or_one (i + s) with hp | hp <;> simp only [hp]
    · exact e2
    · exact e3
  · obtain ⟨e0, e1, -, -⟩ := h.dc i hi
    rcases Nat.mod_two_eq_zero_or_one (i + s) with hp | hp <;> simp only [hp]
    · exact e1
    · exact e0
  · rcases Nat.mod_two_eq_zero_or_one (i + s) with hp | hp
    · have hq : (i + 1 + s) % 2 = 1 := by omega
      simp only [hp, hq, onP, if_true]
      rw [(h.j6 i hi).2, (h.btm i hi).2, (h.j5 i hi).2]
    · have hq : (i + 1 + s) % 2 = 0 := by omega
      simp only [hp, hq, onP, one_ne_zero, if_false]
      rw [(h.j4 i hi).2, (h.top i hi).2, (h.j3 i hi).2]
  · rcases Nat.mod_two_eq_zero_or_one (i + s) with hp | hp
    · have hq : (i + 1 + s) % 2 = 1 := by omega
      simp only [hp, hq, offP, if_true]
      rw [(h.j3 i hi).1, (h.top i hi).1, (h.j4 i hi).1]
    · have hq : (i + 1 + s) % 2 = 0 := by omega
      simp only [hp, hq, offP, one_ne_zero, if_false]
      rw [(h.j5 i hi).1, (h.btm i hi).1, (h.j6 i hi).1]
  · rcases Nat.mod_two_eq_zero_or_one (n + s) with hp | hp <;> simp only [hp]
    · exact h3
    · exact h2

/-- Members by name. -/
theorem parts_mem (n : ℕ) (k : ℕ → ℝ) (top btm : ℕ → Wg) : ("source".toList, Part.source) ∈ crowModules n k top btm ∧
    ("through".toList, Part.detector) ∈ crowModules n k top btm ∧ ("drop".toList, Part.detector) ∈ crowModules n k top btm ∧
    ("add".toList, Part.detector) ∈ crowModules n k top btm ∧ (∀ i ≤ n, (dcN i, Part.coupler (k i)) ∈ crowModules n k top btm) ∧
    (∀ i < n, (topN i, (top i).part) ∈ crowModules n k top btm) ∧ ∀ i < n, (btmN i, (btm i).part) ∈ crowModules n k top btm :=
  ⟨mem_modules.mpr (.inl rfl), mem_modules.mpr (.inr (.inl rfl)), mem_modules.mpr (.inr (.inr (.inl rfl))),
    mem_modules.mpr (.inr (.inr (.inr (.inl rfl)))), fun i hi => mem_modules.mpr (.inr (.inr (.inr (.inr (.inl ⟨i, hi, rfl⟩))))),
    fun i hi => mem_modules.mpr (.inr (.inr (.inr (.inr (.inr (.inl ⟨i, hi, rfl⟩)))))),
    fun i hi => mem_modules.mpr (.inr (.inr (.inr (.inr (.inr (.inr ⟨i, hi, rfl⟩))))))⟩

theorem free_parts (env : SimEnv) (v : ℝ) (hf : env.freqdomain = true) : (∀ k, ¬Holds env v (.coupler k)) ∧ ∀ g : Wg, ¬Holds env v g.part := by
  constructor
  · rintro k (h | h | ⟨h, -⟩)
    · cases h
    · cases h
    · rw [hf] at h; cases h
  · rintro g (h | h | ⟨h, -⟩)
    · cases h
    · cases h
    · rw [hf] at h; cases h

theorem fin_mem (n : ℕ) (k : ℕ → ℝ) (top btm : ℕ → Wg) : (fin1 n, Part.detector) ∈ crowModules n k top btm ∧
    (fin2 n, Part.detector) ∈ crowModules n k top btm := by
  obtain ⟨-, -, hd, ha, -⟩ := parts_mem n k top btm
  rcases fin_cases n with ⟨h1, h2⟩ | ⟨h1, h2⟩ <;> rw [h1, h2]
  · exact ⟨hd, ha⟩
  · exact ⟨ha, hd⟩

/-- Without light from outside there is no light at the couplers, unless the denominator vanishes. -/
theorem Eqs.quiet {wl : ℝ} {A B : Str → ℕ → ℂ} (h : Eqs n k top btm wl A B) (hk : ∀ i ≤ n, 0 ≤ k i ∧ k i ≤ 1)
    (hM : (crowAt n k top btm wl).1 ≠ 0) (c0 : A (dcN 0) 0 = 0) (c1 : A (dcN 0) 1 = 0) (c2 : A (dcN n) 2 = 0)
    (c3 : A (dcN n) 3 = 0) : ∀ i ≤ n, ∀ p < 4, A (dcN i) p = 0 ∧ B (dcN i) p = 0 := by
  have Z : ∀ s, s < 2 → ∀ i ≤ n, A (dcN i) ((i + s) % 2) = 0 ∧ B (dcN i) (1 - (i + s) % 2) = 0 ∧ B (dcN i) (2 + (i + s) % 2) = 0 ∧
      A (dcN i) (3 - (i + s) % 2) = 0 := by
    intro s hs i hi
    refine fam_zero (ratio_rec (tau k) _ _ _ (paths top btm wl s) n) (fun i hi => sq_sum (hk i hi).1 (hk i hi).2)
      (fun i hi h => sq_one (hk i hi).1 h) (fun i _ => off_ne wl s i) (Nat.zero_le n) (h.fam c3 c2 s) hM ?_ i (Nat.zero_le i) hi
    interval_cases s
    · exact c0
    · exact c1
  intro i hi p hp
  obtain ⟨a1, a2, a3, a4⟩ := Z 0 (by omega) i hi
  obtain ⟨b1, b2, b3, b4⟩ := Z 1 (by omega) i hi
  rcases Nat.mod_two_eq_zero_or_one (i + 0) with hm | hm
  · have hm' : (i + 1) % 2 = 1 := by omega
    rw [hm] at a1 a2 a3 a4
    rw [hm'] at b1 b2 b3 b4
    interval_cases p
    · exact ⟨a1, b2⟩
    · exact ⟨b1, a2⟩
    · exact ⟨b4, a3⟩
    · exact ⟨a4, b3⟩
  · have hm' : (i + 1) % 2 = 0 := by omega
    rw [hm] at a1 a2 a3 a4
    rw [hm'] at b1 b2 b3 b4
    interval_cases p
    · exact ⟨b1, a2⟩
    · exact ⟨a1, b2⟩
    · exact ⟨a4, b3⟩
    · exact ⟨b4, a3⟩

/-- Without input there is no light in the rings, unless the denominator vanishes. -/
theorem trapped_zero {env : SimEnv} {v wl : ℝ} (hf : env.freqdomain = true) (hk : ∀ i ≤ n, 0 ≤ k i ∧ k i ≤ 1)
    (hM : (crowAt n k top btm wl).1 ≠ 0) {A B : Str → ℕ → ℂ} (h : Trapped env v (crowModules n k top btm) (conns n) wl A B) :
    ∀ q ∈ crowModules n k top btm, ∀ i < q.2.n, A q.1 i = 0 := by
  obtain ⟨ms, mt, md, ma, mc, mtop, mbtm⟩ := parts_mem n k top btm
  obtain ⟨fc, fw⟩ := free_parts env v hf
  obtain ⟨js, jt, jm, jf1, jf2⟩ := joins n
  have hE : Eqs n k top btm wl A B := by
    refine ⟨fun i hi => ?_, fun i hi => ?_, fun i hi => ?_, fun i hi => ?_, fun i hi => ?_, fun i hi => ?_, fun i hi => ?_⟩
    · obtain ⟨e0, e1, e2, e3⟩ := coupler_scatter (k i) wl (A (dcN i))
      exact ⟨(h.scattered _ (mc i hi) (fc _) (0 : Fin 4)).trans e0, (h.scattered _ (mc i hi) (fc _) (1 : Fin 4)).trans e1,
        (h.scattered _ (mc i hi) (fc _) (2 : Fin 4)).trans e2, (h.scattered _ (mc i hi) (fc _) (3 : Fin 4)).trans e3⟩
    · obtain ⟨e0, e1⟩ := wg_scatter (top i) wl (A (topN i))
      exact ⟨(h.scattered _ (mtop i hi) (fw _) (0 : Fin 2)).trans e0, (h.scattered _ (mtop i hi) (fw _) (1 : Fin 2)).trans e1⟩
    · obtain ⟨e0, e1⟩ := wg_scatter (btm i) wl (A (btmN i))
      exact ⟨(h.scattered _ (mbtm i hi) (fw _) (0 : Fin 2)).trans e0, (h.scattered _ (mbtm i hi) (fw _) (1 : Fin 2)).trans e1⟩
    · exact ⟨h.joined _ (mc i hi.le) (fc _) _ _ _ (jm i hi).1, h.joined _ (mtop i hi) (fw _) _ _ _ (joined_symm (jm i hi).1)⟩
    · exact ⟨h.joined _ (mtop i hi) (fw _) _ _ _ (jm i hi).2.1, h.joined _ (mc (i + 1) hi) (fc _) _ _ _ (joined_symm (jm i hi).2.1)⟩
    · exact ⟨h.joined _ (mc i hi.le) (fc _) _ _ _ (jm i hi).2.2.1, h.joined _ (mbtm i hi) (fw _) _ _ _ (joined_symm (jm i hi).2.2.1)⟩
    · exact ⟨h.joined _ (mbtm i hi) (fw _) _ _ _ (jm i hi).2.2.2,
        h.joined _ (mc (i + 1) hi) (fc _) _ _ _ (joined_symm (jm i hi).2.2.2)⟩
  have zs := h.held _ ms (.inl rfl) 0 (by decide)
  have zt := h.held _ mt (.inr (.inl rfl)) 0 (by decide)
  have z1 := h.held _ (fin_mem n k top btm).1 (.inr (.inl rfl)) 0 (by decide : 0 < Part.detector.n)
  have z2 := h.held _ (fin_mem n k top btm).2 (.inr (.inl rfl)) 0 (by decide : 0 < Part.detector.n)
  have c0 := (h.joined _ (mc 0 (Nat.zero_le n)) (fc _) _ _ _ (joined_symm js)).trans zs.2
  have c1 := (h.joined _ (mc 0 (Nat.zero_le n)) (fc _) _ _ _ (joined_symm jt)).trans zt.2
  have c2 := (h.joined _ (mc n le_rfl) (fc _) _ _ _ jf2).trans z2.2
  have c3 := (h.joined _ (mc n le_rfl) (fc _) _ _ _ jf1).trans z1.2
  have Zdc := hE.quiet hk hM c0 c1 c2 c3
  intro q hq i hi
  rcases mem_modules.mp hq with rfl | rfl | rfl | rfl | ⟨l, hl, rfl⟩ | ⟨l, hl, rfl⟩ | ⟨l, hl, rfl⟩
  · exact (h.held _ hq (.inl rfl) i hi).1
  · exact (h.held _ hq (.inr (.inl rfl)) i hi).1
  · exact (h.held _ hq (.inr (.inl rfl)) i hi).1
  · exact (h.held _ hq (.inr (.inl rfl)) i hi).1
  · exact (Zdc l hl i hi).1
  · have : i = 0 ∨ i = 1 := by simp only [Wg.part, Part.n] at hi; omega
    rcases this with rfl | rfl
    · exact (hE.j3 l hl).2.trans (Zdc l hl.le 3 (by omega)).2
    · exact (hE.j4 l hl).1.trans (Zdc (l + 1) hl 0 (by omega)).2
  · have : i = 0 ∨ i = 1 := by simp only [Wg.part, Part.n] at hi; omega
    rcases this with rfl | rfl
    · exact (hE.j5 l hl).2.trans (Zdc l hl.le 2 (by omega)).2
    · exact (hE.j6 l hl).1.trans (Zdc (l + 1) hl 1 (by omega)).2

/-! ## The light of the source -/

/-- The light that enters, for a family. -/
def waveA (n : ℕ) (thr drp : ℂ) (c r c' r' : ℕ → ℂ) : Str → ℕ → ℂ :=
  look n (fun _ => 0) (fun _ => 0) (fun _ => thr) (fun _ => drp) (fun _ => 0)
    (fun i p => if i % 2 = 0 then [c i, 0, 0, r' i].getD p 0 else [0, c i, r' i, 0].getD p 0)
    (fun i p => if i % 2 = 0 then [0, r (i + 1)].getD p 0 else [c' i, 0].getD p 0)
    (fun i p => if i % 2 = 0 then [c' i, 0].getD p 0 else [0, r (i + 1)].getD p 0)

/-- The light that leaves. -/
def waveB (n : ℕ) (src : ℂ) (c r c' r' : ℕ → ℂ) : Str → ℕ → ℂ :=
  look n (fun _ => 0) (fun _ => src) (fun _ => 0) (fun _ => 0) (fun _ => 0)
    (fun i p => if i % 2 = 0 then [0, r i, c' i, 0].getD p 0 else [r i, 0, 0, c' i].getD p 0)
    (fun i p => if i % 2 = 0 then [r' i, 0].getD p 0 else [0, c (i + 1)].getD p 0)
    (fun i p => if i % 2 = 0 then [0, c (i + 1)].getD p 0 else [r' i, 0].getD p 0)

variable {wl : ℝ} {c r c' r' : ℕ → ℂ}

/-- The couplers and waveguides scatter these waves. -/
theorem wave_inner (hF : Fam (tau k) (kap k) (offP top btm wl 0) (onP top btm wl 0) 0 n c r c' r') (thr drp src : ℂ) :
    (∀ l ≤ n, ∀ i : Fin 4, waveB n src c r c' r' (dcN l) i = ∑ j : Fin 4, scattering (.coupler (k l)) wl i j *
      waveA n thr drp c r c' r' (dcN l) j) ∧
    (∀ l < n, ∀ i : Fin 2, waveB n src c r c' r' (topN l) i = ∑ j : Fin 2, scattering (top l).part wl i j *
      waveA n thr drp c r c' r' (topN l) j) ∧
    ∀ l < n, ∀ i : Fin 2, waveB n src c r c' r' (btmN l) i = ∑ j : Fin 2, scattering (btm l).part wl i j *
      waveA n thr drp c r c' r' (btmN l) j := by
  obtain ⟨-, -, -, -, ad, at', ab⟩ := look_spec n (fun _ : ℕ => (0 : ℂ)) (fun _ => 0) (fun _ => thr) (fun _ => drp) (fun _ => 0)
    (fun i p => if i % 2 = 0 then [c i, 0, 0, r' i].getD p 0 else [0, c i, r' i, 0].getD p 0)
    (fun i p => if i % 2 = 0 then [0, r (i + 1)].getD p 0 else [c' i, 0].getD p 0)
    (fun i p => if i % 2 = 0 then [c' i, 0].getD p 0 else [0, r (i + 1)].getD p 0)
  obtain ⟨-, -, -, -, bd, bt, bb⟩ := look_spec n (fun _ : ℕ => (0 : ℂ)) (fun _ => src) (fun _ => 0) (fun _ => 0) (fun _ => 0)
    (fun i p => if i % 2 = 0 then [0, r i, c' i, 0].getD p 0 else [r i, 0, 0, c' i].getD p 0)
    (fun i p => if i % 2 = 0 then [r' i, 0].getD p 0 else [0, c (i + 1)].getD p 0)
    (fun i p => if i % 2 = 0 then [0, c (i + 1)].getD p 0 else [r' i, 0].getD p 0)
  refine ⟨fun l hl i => ?_, fun l hl i => ?_, fun l hl i => ?_⟩
  · have e1 := hF.pass l (Nat.zero_le l) hl
    have e2 := hF.stay l (Nat.zero_le l) hl
    obtain ⟨s0, s1, s2, s3⟩ := coupler_scatter (k l) wl (waveA n thr drp c r c' r' (dcN l))
    fin_cases i
    · refine Eq.trans ?_ s0.symm
      unfold waveA waveB
      rw [ad l hl, bd l hl]
      by_cases hp : l % 2 = 0
      · simp [hp]
      · simp [hp, e2]
    · refine Eq.trans ?_ s1.symm
      unfold waveA waveB
      rw [ad l hl, bd l hl]
      by_cases hp : l % 2 = 0
      · simp [hp, e2]
      · simp [hp]
    · refine Eq.trans ?_ s2.symm
      unfold waveA waveB
      rw [ad l hl, bd l hl]
      by_cases hp : l % 2 = 0
      · simp [hp, e1]
      · simp [hp]
    · refine Eq.trans ?_ s3.symm
      unfold waveA waveB
      rw [ad l hl, bd l hl]
      by_cases hp : l % 2 = 0
      · simp [hp]
      · simp [hp, e1]
  · have e3 := hF.next l (Nat.zero_le l) hl
    have e4 := hF.back l (Nat.zero_le l) hl
    obtain ⟨s0, s1⟩ := wg_scatter (top l) wl (waveA n thr drp c r c' r' (topN l))
    fin_cases i
    · refine Eq.trans ?_ s0.symm
      unfold waveA waveB
      rw [at' l hl, bt l hl]
      by_cases hp : l % 2 = 0
      · simp [hp, e4, offP]
      · simp [hp]
    · refine Eq.trans ?_ s1.symm
      unfold waveA waveB
      rw [at' l hl, bt l hl]
      by_cases hp : l % 2 = 0
      · simp [hp]
      · simp [hp, e3, onP]
  · have e3 := hF.next l (Nat.zero_le l) hl
    have e4 := hF.back l (Nat.zero_le l) hl
    obtain ⟨s0, s1⟩ := wg_scatter (btm l) wl (waveA n thr drp c r c' r' (btmN l))
    fin_cases i
    · refine Eq.trans ?_ s0.symm
      unfold waveA waveB
      rw [ab l hl, bb l hl]
      by_cases hp : l % 2 = 0
      · simp [hp]
      · simp [hp, e4, offP]
    · refine Eq.trans ?_ s1.symm
      unfold waveA waveB
      rw [ab l hl, bb l hl]
      by_cases hp : l % 2 = 0
      · simp [hp, e3, onP]
      · simp [hp]

/-- What enters a port of these waves left the port connected to it. -/
theorem wave_joined (hs : r' n = 0) (thr drp src : ℂ) (h0 : c 0 = src) (a : Str) (i : ℕ) (b : Str) (j : ℕ)
    (hj : PT.Spec.Joined (conns n) a i b j) :
    ((a ∈ ["source".toList, "through".toList, "drop".toList, "add".toList] ∧ ¬(thr = r 0 ∧ drp = c' n)) ∨
      waveA n thr drp c r c' r' a i = waveB n src c r c' r' b j) := by
  obtain ⟨as, at0, adr, aa, ad, at', ab⟩ := look_spec n (fun _ : ℕ => (0 : ℂ)) (fun _ => 0) (fun _ => thr) (fun _ => drp) (fun _ => 0)
    (fun i p => if i % 2 = 0 then [c i, 0, 0, r' i].getD p 0 else [0, c i, r' i, 0].getD p 0)
    (fun i p => if i % 2 = 0 then [0, r (i + 1)].getD p 0 else [c' i, 0].getD p 0)
    (fun i p => if i % 2 = 0 then [c' i, 0].getD p 0 else [0, r (i + 1)].getD p 0)
  obtain ⟨bs, bt0, bdr, ba, bd, bt, bb⟩ := look_spec n (fun _ : ℕ => (0 : ℂ)) (fun _ => src) (fun _ => 0) (fun _ => 0) (fun _ => 0)
    (fun i p => if i % 2 = 0 then [0, r i, c' i, 0].getD p 0 else [r i, 0, 0, c' i].getD p 0)
    (fun i p => if i % 2 = 0 then [r' i, 0].getD p 0 else [0, c (i + 1)].getD p 0)
    (fun i p => if i % 2 = 0 then [0, c (i + 1)].getD p 0 else [r' i, 0].getD p 0)
  have z := Nat.zero_le n
  refine joined_elim (P := fun a i b j => (a ∈ ["source".toList, "through".toList, "drop".toList, "add".toList] ∧
    ¬(thr = r 0 ∧ drp = c' n)) ∨ waveA n thr drp c r c' r' a i = waveB n src c r c' r' b j) ⟨?_, ?_⟩ ⟨?_, ?_⟩ (fun l hl => ⟨?_, ?_⟩)
    (fun l hl => ⟨?_, ?_⟩) (fun l hl => ⟨?_, ?_⟩) (fun l hl => ⟨?_, ?_⟩) ⟨?_, ?_⟩ ⟨?_, ?_⟩ a i b j hj <;> unfold waveA waveB
  · exact .inr (by rw [as, bd 0 z]; simp)
  · exact .inr (by rw [ad 0 z, bs]; simp [h0])
  · by_cases h : thr = r 0 ∧ drp = c' n
    · exact .inr (by rw [at0, bd 0 z]; simp [h.1])
    · exact .inl ⟨by simp, h⟩
  · exact .inr (by rw [ad 0 z, bt0]; simp)
  · exact .inr (by rw [ad l hl.le, bt l hl]; by_cases hp : l % 2 = 0 <;> simp [hp])
  · exact .inr (by rw [at' l hl, bd l hl.le]; by_cases hp : l % 2 = 0 <;> simp [hp])
  · refine .inr ?_
    rw [at' l hl, bd (l + 1) hl]
    rcases Nat.mod_two_eq_zero_or_one l with hp | hp
    · simp [hp, show (l + 1) % 2 = 1 by omega]
    · simp [hp, show (l + 1) % 2 = 0 by omega]
  · refine .inr ?_
    rw [ad (l + 1) hl, bt l hl]
    rcases Nat.mod_two_eq_zero_or_one l with hp | hp
    · simp [hp, show (l + 1) % 2 = 1 by omega]
    · simp [hp, show (l + 1) % 2 = 0 by omega]
  · exact .inr (by rw [ad l hl.le, bb l hl]; by_cases hp : l % 2 = 0 <;> simp [hp])
  · exact .inr (by rw [ab l hl, bd l hl.le]; by_cases hp : l % 2 = 0 <;> simp [hp])
  · refine .inr ?_
    rw [ab l hl, bd (l + 1) hl]
    rcases Nat.mod_two_eq_zero_or_one l with hp | hp
    · simp [hp, show (l + 1) % 2 = 1 by omega]
    · simp [hp, show (l + 1) % 2 = 0 by omega]
  · refine .inr ?_
    rw [ad (l + 1) hl, bb l hl]
    rcases Nat.mod_two_eq_zero_or_one l with hp | hp
    · simp [hp, show (l + 1) % 2 = 1 by omega]
    · simp [hp, show (l + 1) % 2 = 0 by omega]
  · refine .inr ?_
    rw [ad n le_rfl]
    unfold fin1
    rcases Nat.mod_two_eq_zero_or_one n with hp | hp
    · rw [if_neg (by omega), ba]; simp [hp, hs]
    · rw [if_pos hp, bdr]; simp [hp]
  · unfold fin1
    rw [bd n le_rfl]
    rcases Nat.mod_two_eq_zero_or_one n with hp | hp
    · rw [if_neg (by omega), aa]; simp [hp]
    · rw [if_pos hp, adr]
      by_cases h : thr = r 0 ∧ drp = c' n
      · exact .inr (by simp [hp, h.2])
      · exact .inl ⟨by simp, h⟩
  · refine .inr ?_
    rw [ad n le_rfl]
    unfold fin2
    rcases Nat.mod_two_eq_zero_or_one n with hp | hp
    · rw [if_neg (by omega), bdr]; simp [hp]
    · rw [if_pos hp, ba]; simp [hp, hs]
  · unfold fin2
    rw [bd n le_rfl]
    rcases Nat.mod_two_eq_zero_or_one n with hp | hp
    · rw [if_neg (by omega), adr]
      by_cases h : thr = r 0 ∧ drp = c' n
      · exact .inr (by simp [hp, h.2])
      · exact .inl ⟨by simp, h⟩
    · rw [if_pos hp, aa]; exact .inr (by simp [hp])

theorem wave_ends (n : ℕ) (thr drp src : ℂ) (c r c' r' : ℕ → ℂ) (i : ℕ) :
    waveA n thr drp c r c' r' "source".toList i = 0 ∧ waveA n thr drp c r c' r' "through".toList i = thr ∧
    waveA n thr drp c r c' r' "drop".toList i = drp ∧ waveA n thr drp c r c' r' "add".toList i = 0 ∧
    waveB n src c r c' r' "source".toList i = src ∧ waveB n src c r c' r' "through".toList i = 0 ∧
    waveB n src c r c' r' "drop".toList i = 0 ∧ waveB n src c r c' r' "add".toList i = 0 := by
  obtain ⟨as, at0, adr, aa, -⟩ := look_spec n (fun _ : ℕ => (0 : ℂ)) (fun _ => 0) (fun _ => thr) (fun _ => drp) (fun _ => 0)
    (fun i p => if i % 2 = 0 then [c i, 0, 0, r' i].getD p 0 else [0, c i, r' i, 0].getD p 0)
    (fun i p => if i % 2 = 0 then [0, r (i + 1)].getD p 0 else [c' i, 0].getD p 0)
    (fun i p => if i % 2 = 0 then [c' i, 0].getD p 0 else [0, r (i + 1)].getD p 0)
  obtain ⟨bs, bt0, bdr, ba, -⟩ := look_spec n (fun _ : ℕ => (0 : ℂ)) (fun _ => src) (fun _ => 0) (fun _ => 0) (fun _ => 0)
    (fun i p => if i % 2 = 0 then [0, r i, c' i, 0].getD p 0 else [r i, 0, 0, c' i].getD p 0)
    (fun i p => if i % 2 = 0 then [r' i, 0].getD p 0 else [0, c (i + 1)].getD p 0)
    (fun i p => if i % 2 = 0 then [0, c (i + 1)].getD p 0 else [r' i, 0].getD p 0)
  unfold waveA waveB
  rw [as, at0, adr, aa, bs, bt0, bdr, ba]
  exact ⟨rfl, rfl, rfl, rfl, rfl, rfl, rfl, rfl⟩

theorem wave_steady (hF : Fam (tau k) (kap k) (offP top btm wl 0) (onP top btm wl 0) 0 n c r c' r') (src : ℂ) (h0 : c 0 = src)
    (emit : Str → ℂ) (he : emit "source".toList = src) :
    Steady (crowModules n k top btm) (conns n) wl emit (waveA n (r 0) (c' n) c r c' r') (waveB n src c r c' r') := by
  obtain ⟨w1, w2, w3⟩ := wave_inner hF (r 0) (c' n) src
  refine ⟨fun a i b j hj => ?_, fun q hq i => ?_⟩
  · rcases wave_joined hF.stop (r 0) (c' n) src h0 a i b j hj with ⟨-, h⟩ | h
    · exact absurd ⟨rfl, rfl⟩ h
    · exact h
  · obtain ⟨-, -, -, -, e5, e6, e7, e8⟩ := wave_ends n (r 0) (c' n) src c r c' r' i
    rcases mem_modules.mp hq with rfl | rfl | rfl | rfl | ⟨l, hl, rfl⟩ | ⟨l, hl, rfl⟩ | ⟨l, hl, rfl⟩
    · refine e5.trans ?_
      rw [end_scatter .source wl (.inl rfl) i, zero_add, ← he]
      rfl
    · refine e6.trans ?_
      rw [end_scatter .detector wl (.inr rfl) i]
      simp [isSource]
    · refine e7.trans ?_
      rw [end_scatter .detector wl (.inr rfl) i]
      simp [isSource]
    · refine e8.trans ?_
      rw [end_scatter .detector wl (.inr rfl) i]
      simp [isSource]
    · exact (w1 l hl i).trans (add_zero _).symm
    · exact (w2 l hl i).trans (add_zero _).symm
    · exact (w3 l hl i).trans (add_zero _).symm

theorem wave_trapped {env : SimEnv} {v : ℝ} (hf : env.freqdomain = true)
    (hF : Fam (tau k) (kap k) (offP top btm wl 0) (onP top btm wl 0) 0 n c r c' r') (h0 : c 0 = 0) :
    Trapped env v (crowModules n k top btm) (conns n) wl (waveA n 0 0 c r c' r') (waveB n 0 c r c' r') := by
  obtain ⟨w1, w2, w3⟩ := wave_inner hF 0 0 0
  obtain ⟨fc, fw⟩ := free_parts env v hf
  have hm : ∀ q ∈ crowModules n k top btm, ¬Holds env v q.2 → q.1 ∉ ["source".toList, "through".toList, "drop".toList, "add".toList] := by
    intro q hq hh hx
    have : ∀ x : Str, (x.take 2 = ['d', 'c'] ∨ x.take 2 = ['t', 'o'] ∨ x.take 2 = ['b', 't']) →
        x ∉ ["source".toList, "through".toList, "drop".toList, "add".toList] := by
      intro x hk hx
      obtain ⟨h1, h2, h3, h4⟩ := plain_ne x hk
      simp only [List.mem_cons, List.not_mem_nil, or_false] at hx
      rcases hx with h | h | h | h
      · exact h1 h.symm
      · exact h2 h.symm
      · exact h3 h.symm
      · exact h4 h.symm
    rcases mem_modules.mp hq with rfl | rfl | rfl | rfl | ⟨l, hl, rfl⟩ | ⟨l, hl, rfl⟩ | ⟨l, hl, rfl⟩
    · exact hh (.inl rfl)
    · exact hh (.inr (.inl rfl))
    · exact hh (.inr (.inl rfl))
    · exact hh (.inr (.inl rfl))
    · exact this _ (.inl (dc_key l)) hx
    · exact this _ (.inr (.inl (top_key l))) hx
    · exact this _ (.inr (.inr (btm_key l))) hx
  refine ⟨fun q hq hh i hi => ?_, fun q hq hh i b j hj => ?_, fun q hq hh i => ?_⟩
  · obtain ⟨e1, e2, e3, e4, e5, e6, e7, e8⟩ := wave_ends n 0 0 0 c r c' r' i
    rcases mem_modules.mp hq with rfl | rfl | rfl | rfl | ⟨l, hl, rfl⟩ | ⟨l, hl, rfl⟩ | ⟨l, hl, rfl⟩
    · exact ⟨e1, e5⟩
    · exact ⟨e2, e6⟩
    · exact ⟨e3, e7⟩
    · exact ⟨e4, e8⟩
    · exact absurd hh (fc _)
    · exact absurd hh (fw _)
    · exact absurd hh (fw _)
  · rcases wave_joined hF.stop 0 0 0 h0 q.1 i b j hj with ⟨h, -⟩ | h
    · exact absurd h (hm q hq hh)
    · exact h
  · rcases mem_modules.mp hq with rfl | rfl | rfl | rfl | ⟨l, hl, rfl⟩ | ⟨l, hl, rfl⟩ | ⟨l, hl, rfl⟩
    · exact absurd (.inl rfl) hh
    · exact absurd (.inr (.inl rfl)) hh
    · exact absurd (.inr (.inl rfl)) hh
    · exact absurd (.inr (.inl rfl)) hh
    · exact w1 l hl i
    · exact w2 l hl i
    · exact w3 l hl i

theorem wave_dc (n : ℕ) (thr drp : ℂ) (c r c' r' : ℕ → ℂ) {i : ℕ} (hi : i ≤ n) :
    waveA n thr drp c r c' r' (dcN i) (i % 2) = c i ∧ waveA n thr drp c r c' r' (dcN i) (3 - i % 2) = r' i := by
  obtain ⟨-, -, -, -, ad, -⟩ := look_spec n (fun _ : ℕ => (0 : ℂ)) (fun _ => 0) (fun _ => thr) (fun _ => drp) (fun _ => 0)
    (fun i p => if i % 2 = 0 then [c i, 0, 0, r' i].getD p 0 else [0, c i, r' i, 0].getD p 0)
    (fun i p => if i % 2 = 0 then [0, r (i + 1)].getD p 0 else [c' i, 0].getD p 0)
    (fun i p => if i % 2 = 0 then [c' i, 0].getD p 0 else [0, r (i + 1)].getD p 0)
  unfold waveA
  rw [ad i hi]
  rcases Nat.mod_two_eq_zero_or_one i with hp | hp <;> simp [hp]

theorem pass_eq (n : ℕ) (k : ℕ → ℝ) (top btm : ℕ → Wg) (wl : ℝ) :
    Complex.I * kap k n * amp (kap k) (onP top btm wl 0) 0 n = crowPass n k top btm wl := by
  unfold crowPass amp onP
  rw [Finset.prod_mul_distrib, Finset.range_eq_Ico, Finset.range_eq_Ico, Finset.prod_Ico_succ_top (Nat.zero_le n)]
  simp only [add_zero]
  ring

end Crow

open Crow

/-- C95. The response of `n` coupled rings. The light that has passed all rings is seen by the detector called `drop`, none by
`add`. The channels are in the order in which the links mention the detectors: for an odd number of rings `drop`, `through`,
`add`, for an even number `add`, `through`, `drop`. -/
theorem C95_response (n : ℕ) (k : ℕ → ℝ) (hk : ∀ i ≤ n, 0 ≤ k i ∧ k i ≤ 1) (top btm : ℕ → Wg) :
    ∃ d, LinkedNet (crowModules n k top btm) (crowLinks n) d ∧ ∀ (W B : Type) (v : ℝ) (wl : W → ℝ) (env : SimEnv),
      env.freqdomain = true → env.t.length = 1 →
      ((∀ w, (crowAt n k top btm (wl w)).1 ≠ 0) → ∃ r, initNet (d.plant v wl) env = .ok (some r) ∧
        ∀ (acts : List (Actor W B)) (src : ℕ → ℕ → W → B → ℝ × ℝ), ∃ o, forwardReduced r env acts src = .ok [o] ∧
          ∀ w b, (o w b).map asComplex =
            if n % 2 = 1 then
              [crowPass n k top btm (wl w) / (crowAt n k top btm (wl w)).1 * asComplex (src 0 0 w b),
                (crowAt n k top btm (wl w)).2 / (crowAt n k top btm (wl w)).1 * asComplex (src 0 0 w b), 0]
            else
              [0, (crowAt n k top btm (wl w)).2 / (crowAt n k top btm (wl w)).1 * asComplex (src 0 0 w b),
                crowPass n k top btm (wl w) / (crowAt n k top btm (wl w)).1 * asComplex (src 0 0 w b)]) ∧
      ((∃ w, (crowAt n k top btm (wl w)).1 = 0) → initNet (d.plant v wl) env = .error .runtimeError) := by
  obtain ⟨hok, hcs⟩ := links_ok n
  have hcl := Crow.closed n k top btm
  obtain ⟨d, hd⟩ := C94_built hcl none
  obtain ⟨ms, mt, md, ma, mc, mtop, mbtm⟩ := parts_mem n k top btm
  refine ⟨d, ⟨hok, by rw [hcs]; exact hd⟩, fun W B v wl env hf ht1 => ⟨fun hM => ?_, fun ⟨w, hw⟩ => ?_⟩⟩
  · obtain ⟨r, hr⟩ := (C94_initialized hcl none d hd v wl env ⟨_, ms, .inl rfl⟩).1 fun w A B hT => trapped_zero hf hk (hM w) hT
    refine ⟨r, hr, fun acts src => ?_⟩
    obtain ⟨o, ho, H⟩ := C94_frequency hcl ⟨_, mt, rfl⟩ none d hd v wl env hf ht1 r hr acts src
    refine ⟨o, ho, fun w b => ?_⟩
    obtain ⟨-, H⟩ := H w b
    have hR := ratio_rec (tau k) _ _ _ (paths top btm (wl w) 0) n
    obtain ⟨c, r0, c', r', hF, hc, hr0, hc'⟩ := fam_exists (κ := kap k) hR (fun i hi => sq_sum (hk i hi).1 (hk i hi).2) 0
      (Nat.zero_le n) (asComplex (src 0 0 w b) / (crowAt n k top btm (wl w)).1)
    have h0 : c 0 = asComplex (src 0 0 w b) := hc.trans (div_mul_cancel₀ _ (hM w))
    have h1 : r0 0 = (crowAt n k top btm (wl w)).2 / (crowAt n k top btm (wl w)).1 * asComplex (src 0 0 w b) := by
      rw [hr0]
      show _ / _ * (crowAt n k top btm (wl w)).2 = _
      ring
    have h2 : c' n = crowPass n k top btm (wl w) / (crowAt n k top btm (wl w)).1 * asComplex (src 0 0 w b) := by
      rw [hc', pass_eq]
      ring
    have hS := wave_steady hF _ h0 (fun x => asComplex (src 0 ((emitters (crowModules n k top btm) (conns n)).idxOf x) w b)) (by
      rw [(Crow.channels n k top btm).1]
      rfl)
    rw [H _ _ hS, (Crow.channels n k top btm).2]
    obtain ⟨-, e2, e3, e4, -⟩ := wave_ends n (r0 0) (c' n) 0 c r0 c' r' 0
    simp only [List.map_cons, List.map_nil]
    unfold fin1 fin2
    split
    · rw [e2, e3, e4, h1, h2]
    · rw [e2, e3, e4, h1, h2]
  · have hR := ratio_rec (tau k) _ _ _ (paths top btm (wl w) 0) n
    obtain ⟨c, r0, c', r', hF, hc, i, hi, hne⟩ := fam_trapped (κ := kap k) hR (fun i hi => sq_sum (hk i hi).1 (hk i hi).2)
      (fun i hi h => sq_one (hk i hi).1 h) (fun i _ => off_ne _ _ i) (fun i _ => on_ne _ _ i) hw
    refine (C94_initialized hcl none d hd v wl env ⟨_, ms, .inl rfl⟩).2 w _ _ (wave_trapped hf hF hc) ?_
    obtain ⟨w1, w2⟩ := wave_dc n 0 0 c r0 c' r' hi
    rcases hne with hne | hne
    · exact ⟨_, mc i hi, i % 2, show i % 2 < 4 by omega, by rw [w1]; exact hne⟩
    · exact ⟨_, mc i hi, 3 - i % 2, show 3 - i % 2 < 4 by omega, by rw [w2]; exact hne⟩

theorem ratio_norm (τ : ℕ → ℝ) (z : ℕ → ℂ) : ∀ (m i : ℕ), (∀ j, i ≤ j → j ≤ i + m → 0 ≤ τ j ∧ τ j ≤ 1) →
    (∀ j, i ≤ j → j < i + m → ‖z j‖ ≤ 1 ∧ τ j * ‖z j‖ < 1) →
    (crowRatio (fun j => τ j) z i m).1 ≠ 0 ∧
      Complex.normSq (crowRatio (fun j => τ j) z i m).2 ≤ Complex.normSq (crowRatio (fun j => τ j) z i m).1 := by
  intro m
  induction m with
  | zero =>
    intro i hτ _
    refine ⟨one_ne_zero, ?_⟩
    obtain ⟨h1, h2⟩ := hτ i le_rfl le_rfl
    show Complex.normSq (τ i : ℂ) ≤ Complex.normSq 1
    rw [Complex.normSq_ofReal, Complex.normSq_one]
    nlinarith
  | succ m ih =>
    intro i hτ hz
    obtain ⟨h1, h2⟩ := ih (i + 1) (fun j h1 h2 => hτ j (by omega) (by omega)) fun j h1 h2 => hz j (by omega) (by omega)
    obtain ⟨t0, t1⟩ := hτ i le_rfl (by omega)
    obtain ⟨z1, z2⟩ := hz i le_rfl (by omega)
    show (crowRatio (fun j => τ j) z (i + 1) m).1 - τ i * z i * (crowRatio (fun j => τ j) z (i + 1) m).2 ≠ 0 ∧
      Complex.normSq (τ i * (crowRatio (fun j => τ j) z (i + 1) m).1 - z i * (crowRatio (fun j => τ j) z (i + 1) m).2) ≤
      Complex.normSq ((crowRatio (fun j => τ j) z (i + 1) m).1 - τ i * z i * (crowRatio (fun j => τ j) z (i + 1) m).2)
    generalize (crowRatio (fun j => τ j) z (i + 1) m).1 = M at *
    generalize (crowRatio (fun j => τ j) z (i + 1) m).2 = N at *
    have hNM : ‖N‖ ≤ ‖M‖ := by
      rw [Complex.normSq_eq_norm_sq, Complex.normSq_eq_norm_sq] at h2
      exact le_of_sq_le_sq h2 (norm_nonneg _) 
    have hM : 0 < ‖M‖ := norm_pos_iff.mpr h1
    constructor
    · intro h
      have : ‖M‖ = τ i * ‖z i‖ * ‖N‖ := by
        rw [sub_eq_zero.mp h, norm_mul, norm_mul, Complex.norm_real, Real.norm_eq_abs, abs_of_nonneg t0]
      have h3 : τ i * ‖z i‖ * ‖N‖ ≤ τ i * ‖z i‖ * ‖M‖ := mul_le_mul_of_nonneg_left hNM (mul_nonneg t0 (norm_nonneg _))
      nlinarith
    · have e : Complex.normSq (M - τ i * z i * N) - Complex.normSq (τ i * M - z i * N) =
          (1 - τ i ^ 2) * (Complex.normSq M - Complex.normSq (z i * N)) := by
        simp only [Complex.normSq_apply, Complex.sub_re, Complex.sub_im, Complex.mul_re, Complex.mul_im, Complex.ofReal_re,
          Complex.ofReal_im]
        ring
      have h4 : Complex.normSq (z i * N) ≤ Complex.normSq M := by
        rw [map_mul]
        have : Complex.normSq (z i) ≤ 1 := by
          rw [Complex.normSq_eq_norm_sq]
          exact pow_le_one₀ (norm_nonneg _) z1
        calc _ ≤ 1 * Complex.normSq N := mul_le_mul_of_nonneg_right this (Complex.normSq_nonneg _)
          _ ≤ _ := by rw [one_mul]; exact h2
      have h5 : 0 ≤ (1 - τ i ^ 2) * (Complex.normSq M - Complex.normSq (z i * N)) :=
        mul_nonneg (by nlinarith) (by linarith)
      linarith

/-- C95. Rings that do not amplify always have a response, if each of them is coupled to the side of the source or lossy. -/
theorem C95_passive (n : ℕ) (k : ℕ → ℝ) (hk : ∀ i ≤ n, 0 ≤ k i ∧ k i ≤ 1) (top btm : ℕ → Wg)
    (hz : ∀ i < n, 0 ≤ (top i).loss * (top i).length ∧ 0 ≤ (btm i).loss * (btm i).length)
    (hl : ∀ i < n, 0 < k i ∨ 0 < (top i).loss * (top i).length ∨ 0 < (btm i).loss * (btm i).length) (wl : ℝ) :
    (crowAt n k top btm wl).1 ≠ 0 ∧ ‖(crowAt n k top btm wl).2 / (crowAt n k top btm wl).1‖ ≤ 1 := by
  have hlt : ∀ g : Wg, 0 < g.loss * g.length → ‖g.amp wl‖ < 1 := by
    intro g hg
    rw [wg_norm]
    exact Real.rpow_lt_one_of_one_lt_of_neg (by norm_num) (by linarith)
  obtain ⟨h1, h2⟩ := ratio_norm (fun i => √(1 - k i)) (fun i => (top i).amp wl * (btm i).amp wl) n 0
    (fun i _ hi => ⟨Real.sqrt_nonneg _, Real.sqrt_le_one.mpr (by linarith [(hk i (by omega)).1])⟩) (by
    intro i _ hi
    have hi : i < n := by omega
    have t1 := wg_passive (top i) (hz i hi).1 wl
    have t2 := wg_passive (btm i) (hz i hi).2 wl
    have n1 := norm_nonneg ((top i).amp wl)
    have n2 := norm_nonneg ((btm i).amp wl)
    have s1 : √(1 - k i) ≤ 1 := Real.sqrt_le_one.mpr (by linarith [(hk i hi.le).1])
    have s0 := Real.sqrt_nonneg (1 - k i)
    rw [norm_mul]
    refine ⟨by nlinarith, ?_⟩
    rcases hl i hi with h | h | h
    · have : √(1 - k i) < 1 := by
        rw [Real.sqrt_lt' one_pos]
        linarith
      have h6 : ‖(top i).amp wl‖ * ‖(btm i).amp wl‖ ≤ 1 := by nlinarith
      have h7 := mul_nonneg n1 n2
      nlinarith
    · have h5 := hlt _ h
      have h6 : ‖(top i).amp wl‖ * ‖(btm i).amp wl‖ < 1 := by nlinarith
      have h7 := mul_nonneg n1 n2
      nlinarith
    · have h5 := hlt _ h
      have h6 : ‖(top i).amp wl‖ * ‖(btm i).amp wl‖ < 1 := by nlinarith
      have h7 := mul_nonneg n1 n2
      nlinarith)
  refine ⟨h1, ?_⟩
  rw [norm_div]
  refine (div_le_one (norm_pos_iff.mpr h1)).mpr ?_
  rw [Complex.normSq_eq_norm_sq, Complex.normSq_eq_norm_sq] at h2
  exact le_of_sq_le_sq h2 (norm_nonneg _)

theorem ratio_lossless (k : ℕ → ℝ) (z : ℕ → ℂ) : ∀ (m i : ℕ), (∀ j, i ≤ j → j ≤ i + m → 0 ≤ k j ∧ k j ≤ 1) →
    (∀ j, i ≤ j → j < i + m → ‖z j‖ = 1) →
    Complex.normSq (crowRatio (fun j => √(1 - k j)) z i m).1 - Complex.normSq (crowRatio (fun j => √(1 - k j)) z i m).2 =
      ∏ j ∈ Finset.Ico i (i + m + 1), k j := by
  intro m
  induction m with
  | zero =>
    intro i hk _
    obtain ⟨h1, h2⟩ := hk i le_rfl le_rfl
    show Complex.normSq 1 - Complex.normSq ((√(1 - k i) : ℝ) : ℂ) = _
    rw [Complex.normSq_ofReal, Complex.normSq_one, Real.mul_self_sqrt (by linarith), Nat.add_zero, Finset.prod_Ico_succ_top le_rfl]
    simp
  | succ m ih =>
    intro i hk hz
    have h := ih (i + 1) (fun j h1 h2 => hk j (by omega) (by omega)) fun j h1 h2 => hz j (by omega) (by omega)
    obtain ⟨t0, t1⟩ := hk i le_rfl (by omega)
    have z1 := hz i le_rfl (by omega)
    rw [Finset.prod_eq_prod_Ico_succ_bot (by omega), show i + (m + 1) + 1 = i + 1 + m + 1 by omega, ← h]
    show Complex.normSq ((crowRatio (fun j => √(1 - k j)) z (i + 1) m).1 - (√(1 - k i) : ℝ) * z i *
        (crowRatio (fun j => √(1 - k j)) z (i + 1) m).2) -
      Complex.normSq ((√(1 - k i) : ℝ) * (crowRatio (fun j => √(1 - k j)) z (i + 1) m).1 - z i *
        (crowRatio (fun j => √(1 - k j)) z (i + 1) m).2) = _
    generalize (crowRatio (fun j => √(1 - k j)) z (i + 1) m).1 = M at *
    generalize (crowRatio (fun j => √(1 - k j)) z (i + 1) m).2 = N at *
    have hs := Real.mul_self_sqrt (show 0 ≤ 1 - k i by linarith)
    have hz : Complex.normSq (z i) = 1 := by rw [Complex.normSq_eq_norm_sq, z1, one_pow]
    have e : Complex.normSq (M - (√(1 - k i) : ℝ) * z i * N) - Complex.normSq ((√(1 - k i) : ℝ) * M - z i * N) =
        (1 - √(1 - k i) * √(1 - k i)) * (Complex.normSq M - Complex.normSq (z i) * Complex.normSq N) := by
      simp only [Complex.normSq_apply, Complex.sub_re, Complex.sub_im, Complex.mul_re, Complex.mul_im, Complex.ofReal_re,
        Complex.ofReal_im]
      ring
    rw [e, hs, hz]
    ring

/-- C95. Without loss, what is not dropped passes through. -/
theorem C95_lossless (n : ℕ) (k : ℕ → ℝ) (hk : ∀ i ≤ n, 0 ≤ k i ∧ k i ≤ 1) (top btm : ℕ → Wg)
    (hz : ∀ i < n, (top i).loss * (top i).length = 0 ∧ (btm i).loss * (btm i).length = 0) (wl : ℝ)
    (hM : (crowAt n k top btm wl).1 ≠ 0) :
    ‖(crowAt n k top btm wl).2 / (crowAt n k top btm wl).1‖ ^ 2 + ‖crowPass n k top btm wl / (crowAt n k top btm wl).1‖ ^ 2 = 1 := by
  have h1 : ∀ g : Wg, g.loss * g.length = 0 → ‖g.amp wl‖ = 1 := by
    intro g hg
    rw [wg_norm, hg]
    norm_num
  have h := ratio_lossless k (fun i => (top i).amp wl * (btm i).amp wl) n 0 (fun j _ hj => hk j (by omega)) (by
    intro j _ hj
    rw [norm_mul, h1 _ (hz j (by omega)).1, h1 _ (hz j (by omega)).2, one_mul])
  rw [zero_add] at h
  have hp : ‖crowPass n k top btm wl‖ ^ 2 = ∏ j ∈ Finset.Ico 0 (n + 1), k j := by
    unfold crowPass
    rw [norm_mul, norm_prod, norm_prod, Finset.prod_eq_one (s := Finset.range n), mul_one, ← Finset.prod_pow, Finset.range_eq_Ico]
    · refine Finset.prod_congr rfl fun j hj => ?_
      have hj := (Finset.mem_Ico.mp hj).2
      rw [norm_mul, Complex.norm_I, one_mul, Complex.norm_real, Real.norm_eq_abs, abs_of_nonneg (Real.sqrt_nonneg _),
        Real.sq_sqrt (hk j (by omega)).1]
    · intro j hj
      have hj := Finset.mem_range.mp hj
      split
      · exact h1 _ (hz j hj).2
      · exact h1 _ (hz j hj).1
  have h3 : (‖(crowAt n k top btm wl).1‖ ^ 2) ≠ 0 := pow_ne_zero 2 (norm_ne_zero_iff.mpr hM)
  rw [norm_div, norm_div, div_pow, div_pow, ← add_div, div_eq_one_iff_eq h3, hp, ← h, Complex.normSq_eq_norm_sq,
    Complex.normSq_eq_norm_sq]
  show ‖(crowAt n k top btm wl).2‖ ^ 2 + (‖(crowAt n k top btm wl).1‖ ^ 2 - ‖(crowAt n k top btm wl).2‖ ^ 2) = _
  ring

/-- The textbook case of one ring (compare C89). -/
example (k : ℕ → ℝ) (top btm : ℕ → Wg) (wl : ℝ) :
    crowAt 1 k top btm wl = (1 - √(1 - k 0) * ((top 0).amp wl * (btm 0).amp wl) * √(1 - k 1),
      √(1 - k 0) - (top 0).amp wl * (btm 0).amp wl * √(1 - k 1)) ∧
    crowPass 1 k top btm wl = -(√(k 0) * √(k 1) * (btm 0).amp wl) := by
  constructor
  · simp [crowAt, crowRatio]
  · simp only [crowPass, Finset.prod_range_succ, Finset.prod_range_zero, one_mul, Nat.zero_mod, if_true]
    linear_combination (√(k 0) * √(k 1) * (btm 0).amp wl : ℂ) * Complex.I_mul_I

/-- The network of the notebook: ten rings of 10 µm with 1000 dB/m. Its channel 0, which the notebook trains as the drop channel, is
the add port and stays dark. -/
example : ∃ d, LinkedNet (crowModules 10 (fun _ => 1 / 2) (fun _ => ⟨5e-6, 1000, 2.34, 1.55e-6, 3.4, 0⟩)
    fun _ => ⟨5e-6, 1000, 2.34, 1.55e-6, 3.4, 0⟩) (crowLinks 10) d ∧ ∀ env : SimEnv, env.freqdomain = true → env.t.length = 1 →
      ∃ r, initNet (d.plant 299792458 fun w : ℝ => w) env = .ok (some r) ∧
        ∀ src : ℕ → ℕ → ℝ → Unit → ℝ × ℝ, ∃ o, forwardReduced r env [] src = .ok [o] ∧
          ∀ w b, ((o w b).map asComplex)[0]? = some 0 := by
  obtain ⟨d, hd, H⟩ := C95_response 10 (fun _ => 1 / 2) (fun _ _ => by norm_num) (fun _ => ⟨5e-6, 1000, 2.34, 1.55e-6, 3.4, 0⟩)
    fun _ => ⟨5e-6, 1000, 2.34, 1.55e-6, 3.4, 0⟩
  refine ⟨d, hd, fun env hf ht => ?_⟩
  obtain ⟨r, hr, H⟩ := (H ℝ Unit 299792458 (fun w => w) env hf ht).1 fun w =>
    (C95_passive 10 _ (fun _ _ => by norm_num) _ _ (fun _ _ => by norm_num) (fun _ _ => .inl (by norm_num)) w).1
  refine ⟨r, hr, fun src => ?_⟩
  obtain ⟨o, ho, H⟩ := H [] src
  refine ⟨o, ho, fun w b => ?_⟩
  rw [H w b, if_neg (by decide)]
  rfl

end PT
