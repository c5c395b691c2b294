import Verif.Props.Replace

/-!
# C103: a waveguide and two waveguides in its place
-/

namespace PT
open Spec Matrix

/-- Two waveguides in series. -/
noncomputable def pair (x y : Str) (g₁ g₂ : Wg) : Sheet :=
  ⟨[(x, g₁.part), (y, g₂.part)], [.inner x 1 y 0], [(x, 0), (y, 1)]⟩

/-- One waveguide with the lengths and phases of two. -/
noncomputable def Spec.Wg.joint (g₁ g₂ : Wg) : Wg := ⟨g₁.length + g₂.length, g₁.loss, g₁.neff, g₁.wl0, g₁.ng, g₁.phase + g₂.phase⟩

/-- Waveguides of the same kind. -/
def Spec.Wg.Akin (g₁ g₂ : Wg) : Prop := g₁.loss = g₂.loss ∧ g₁.neff = g₂.neff ∧ g₁.wl0 = g₂.wl0 ∧ g₁.ng = g₂.ng

theorem joint_amp {g₁ g₂ : Wg} (h : g₁.Akin g₂) (wl : ℝ) : (g₁.joint g₂).amp wl = g₁.amp wl * g₂.amp wl := by
  obtain ⟨l₁, o, n, w, m, p⟩ := g₁
  obtain ⟨l₂, o', n', w', m', p'⟩ := g₂
  obtain ⟨rfl, rfl, rfl, rfl⟩ := h
  unfold Wg.amp Wg.joint
  dsimp only
  rw [show -(o * (l₁ + l₂)) / 20 = -(o * l₁) / 20 + -(o * l₂) / 20 by ring, Real.rpow_add (by norm_num),
    show 2 * Real.pi * (n + (w - wl) * (m - n) / w) * (l₁ + l₂) / wl + (p + p') =
      (2 * Real.pi * (n + (w - wl) * (m - n) / w) * l₁ / wl + p) + (2 * Real.pi * (n + (w - wl) * (m - n) / w) * l₂ / wl + p') by ring,
    Complex.ofReal_add, add_mul, Complex.exp_add, Complex.ofReal_mul]
  ring

theorem meets_single {V : Type} {z : Str} {g : Wg} {law : Str × Part → (ℕ → V) → (ℕ → V) → Prop} {L : V → V}
    (h : ∀ f k, law (z, g.part) f k ↔ k 0 = L (f 1) ∧ k 1 = L (f 0)) (a b : ℕ → V) :
    Meets (.single z g.part) law a b ↔ b 0 = L (a 1) ∧ b 1 = L (a 0) := by
  constructor
  · rintro ⟨A, B, hF, hf⟩
    obtain ⟨h0, h1⟩ := (h _ _).mp (hF.obeys (z, g.part) (by simp [Sheet.single]))
    obtain ⟨a0, b0⟩ := hf 0 (z, 0) rfl
    obtain ⟨a1, b1⟩ := hf 1 (z, 1) rfl
    simp only [Int.toNat_zero, Int.toNat_one] at a0 b0 a1 b1
    rw [← b0, ← a1, ← b1, ← a0]
    exact ⟨h0, h1⟩
  · intro hb
    refine ⟨fun _ => a, fun _ => b, ⟨fun _ _ _ _ hj => ?_, fun q hq => ?_⟩, ?_⟩
    · rcases hj with hj | hj <;> cases hj
    · obtain rfl : q = (z, g.part) := by simpa [Sheet.single] using hq
      exact (h _ _).mpr hb
    · intro k e he
      match k with
      | 0 => obtain rfl : (z, 0) = e := by simpa [Sheet.single, portNames, Wg.part, Part.n] using he
             exact ⟨rfl, rfl⟩
      | 1 => obtain rfl : (z, 1) = e := by simpa [Sheet.single, portNames, Wg.part, Part.n, List.range_succ] using he
             exact ⟨rfl, rfl⟩
      | k + 2 => simp [Sheet.single, portNames, Wg.part, Part.n, List.range_succ] at he

theorem meets_pair {V : Type} {x y : Str} (hxy : x ≠ y) {g₁ g₂ : Wg} {law : Str × Part → (ℕ → V) → (ℕ → V) → Prop} {L₁ L₂ : V → V}
    (h₁ : ∀ f k, law (x, g₁.part) f k ↔ k 0 = L₁ (f 1) ∧ k 1 = L₁ (f 0)) (h₂ : ∀ f k, law (y, g₂.part) f k ↔ k 0 = L₂ (f 1) ∧ k 1 = L₂ (f 0))
    (a b : ℕ → V) : Meets (pair x y g₁ g₂) law a b ↔ b 0 = L₁ (L₂ (a 1)) ∧ b 1 = L₂ (L₁ (a 0)) := by
  have j : PT.Spec.Joined (pair x y g₁ g₂).conns x 1 y 0 := Or.inl (by simp [pair])
  constructor
  · rintro ⟨A, B, hF, hf⟩
    obtain ⟨h0, h1⟩ := (h₁ _ _).mp (hF.obeys (x, g₁.part) (by simp [pair]))
    obtain ⟨k0, k1⟩ := (h₂ _ _).mp (hF.obeys (y, g₂.part) (by simp [pair]))
    obtain ⟨a0, b0⟩ := hf 0 (x, 0) rfl
    obtain ⟨a1, b1⟩ := hf 1 (y, 1) rfl
    simp only [Int.toNat_zero, Int.toNat_one] at a0 b0 a1 b1 h0 h1 k0 k1
    rw [← b0, ← a1, ← b1, ← a0, h0, k1, hF.joined _ _ _ _ j, hF.joined _ _ _ _ (joined_symm j), k0, h1]
    exact ⟨rfl, rfl⟩
  · rintro ⟨hb0, hb1⟩
    refine ⟨fun z i => if z = x then (if i = 0 then a 0 else L₂ (a 1)) else (if i = 0 then L₁ (a 0) else a 1),
      fun z i => if z = x then (if i = 0 then b 0 else L₁ (a 0)) else (if i = 0 then L₂ (a 1) else b 1), ⟨?_, ?_⟩, ?_⟩
    · intro p i q k hj
      rcases hj with hj | hj
      · simp only [pair, List.mem_cons, List.not_mem_nil, or_false, Conn.inner.injEq] at hj
        obtain ⟨rfl, hi, rfl, hk⟩ := hj
        obtain rfl : i = 1 := by exact_mod_cast hi
        obtain rfl : k = 0 := by exact_mod_cast hk
        simp [hxy.symm]
      · simp only [pair, List.mem_cons, List.not_mem_nil, or_false, Conn.inner.injEq] at hj
        obtain ⟨rfl, hi, rfl, hk⟩ := hj
        obtain rfl : i = 0 := by exact_mod_cast hk
        obtain rfl : k = 1 := by exact_mod_cast hi
        simp [hxy.symm]
    · intro q hq
      simp only [pair, List.mem_cons, List.not_mem_nil, or_false] at hq
      rcases hq with rfl | rfl
      · rw [h₁]
        simpa using hb0
      · rw [h₂]
        simpa [hxy.symm] using hb1
    · intro k e he
      match k with
      | 0 => obtain rfl : (x, 0) = e := by simpa [pair] using he
             simp
      | 1 => obtain rfl : (y, 1) = e := by simpa [pair] using he
             simp [hxy.symm]
      | k + 2 => simp [pair] at he

theorem quiet_pair {V : Type} [Zero V] {x y : Str} {g₁ g₂ : Wg} {law : Str × Part → (ℕ → V) → (ℕ → V) → Prop} {L₁ L₂ : V → V}
    (h₁ : ∀ f k, law (x, g₁.part) f k ↔ k 0 = L₁ (f 1) ∧ k 1 = L₁ (f 0)) (h₂ : ∀ f k, law (y, g₂.part) f k ↔ k 0 = L₂ (f 1) ∧ k 1 = L₂ (f 0))
    (z₁ : L₁ 0 = 0) (z₂ : L₂ 0 = 0) : Quiet (pair x y g₁ g₂) law := by
  intro A B hF hf
  have j : PT.Spec.Joined (pair x y g₁ g₂).conns x 1 y 0 := Or.inl (by simp [pair])
  obtain ⟨h0, h1⟩ := (h₁ _ _).mp (hF.obeys (x, g₁.part) (by simp [pair]))
  obtain ⟨k0, k1⟩ := (h₂ _ _).mp (hF.obeys (y, g₂.part) (by simp [pair]))
  have a0 := hf (x, 0) (by simp [pair])
  have a1 := hf (y, 1) (by simp [pair])
  simp only [Int.toNat_zero, Int.toNat_one] at a0 a1 h0 h1 k0 k1
  have e1 : A x 1 = 0 := by rw [hF.joined _ _ _ _ j, k0, a1, z₂]
  have e2 : A y 0 = 0 := by rw [hF.joined _ _ _ _ (joined_symm j), h1, a0, z₁]
  intro q hq i hi
  simp only [pair, List.mem_cons, List.not_mem_nil, or_false] at hq
  rcases hq with rfl | rfl
  · have : i = 0 ∨ i = 1 := by simp only [Wg.part, Part.n] at hi; omega
    rcases this with rfl | rfl
    · exact a0
    · exact e1
  · have : i = 0 ∨ i = 1 := by simp only [Wg.part, Part.n] at hi; omega
    rcases this with rfl | rfl
    · exact e2
    · exact a1

theorem quiet_single {V : Type} [Zero V] {z : Str} {g : Wg} {law : Str × Part → (ℕ → V) → (ℕ → V) → Prop} : Quiet (.single z g.part) law := by
  intro A B hF hf q hq i hi
  obtain rfl : q = (z, g.part) := by simpa [Sheet.single] using hq
  have := hf (z, (i : ℤ)) (by
    simp only [Sheet.single]
    exact mem_portNames.mpr ⟨_, List.mem_singleton.mpr rfl, i, hi, rfl⟩)
  simpa using this

theorem wg_steadyLaw (wl : ℝ) (emit heard : Str → ℂ) (x : Str) (g : Wg) (f k : ℕ → ℂ) :
    steadyLaw wl emit heard (x, g.part) f k ↔ k 0 = g.amp wl * f 1 ∧ k 1 = g.amp wl * f 0 := by
  obtain ⟨e0, e1⟩ := Crow.wg_scatter g wl f
  constructor
  · intro h
    exact ⟨(h.1 (0 : Fin 2)).trans ((add_zero _).trans e0), (h.1 (1 : Fin 2)).trans ((add_zero _).trans e1)⟩
  · rintro ⟨h0, h1⟩
    refine ⟨fun i => ?_, fun h => by cases h⟩
    change Fin 2 at i
    match i with
    | 0 => exact h0.trans (((add_zero _).trans e0).symm)
    | 1 => exact h1.trans (((add_zero _).trans e1).symm)

/-- Light behind a waveguide. -/
noncomputable def lag (g : Wg) (wl v dt : ℝ) {T : ℕ} (u : Fin T → ℂ) (t : Fin T) : ℂ :=
  g.amp wl * if g.steps v dt ≤ t then u ⟨t - g.steps v dt, (Nat.sub_le _ _).trans_lt t.2⟩ else 0

theorem wg_movingLaw (wl v dt : ℝ) (T : ℕ) (emit heard : ℕ → Str → ℂ) (x : Str) (g : Wg) (f k : ℕ → Fin T → ℂ) :
    movingLaw wl v dt T emit heard (x, g.part) f k ↔ k 0 = lag g wl v dt (f 1) ∧ k 1 = lag g wl v dt (f 0) := by
  have e := fun t : Fin T => Crow.wg_scatter g wl fun j => if g.steps v dt ≤ t then f j ⟨t - g.steps v dt, (Nat.sub_le _ _).trans_lt t.2⟩ else 0
  constructor
  · intro h
    exact ⟨funext fun t => ((h t).1 (0 : Fin 2)).trans ((add_zero _).trans (e t).1),
      funext fun t => ((h t).1 (1 : Fin 2)).trans ((add_zero _).trans (e t).2)⟩
  · rintro ⟨h0, h1⟩ t
    refine ⟨fun i => ?_, fun h => by cases h⟩
    change Fin 2 at i
    match i with
    | 0 => exact (congrFun h0 t).trans (((add_zero _).trans (e t).1).symm)
    | 1 => exact (congrFun h1 t).trans (((add_zero _).trans (e t).2).symm)

theorem lag_lag {g g' h : Wg} {wl v dt : ℝ} (ha : g.amp wl * g'.amp wl = h.amp wl) (hd : g.steps v dt + g'.steps v dt = h.steps v dt) {T : ℕ}
    (u : Fin T → ℂ) : lag g wl v dt (lag g' wl v dt u) = lag h wl v dt u := by
  funext t
  unfold lag
  rw [← ha]
  simp only [← hd]
  by_cases h1 : g.steps v dt ≤ t
  · by_cases h2 : g'.steps v dt ≤ t - g.steps v dt
    · simp only [h1, h2, show g.steps v dt + g'.steps v dt ≤ t by omega, if_true, Nat.sub_sub, mul_assoc]
    · simp only [h1, h2, show ¬g.steps v dt + g'.steps v dt ≤ t by omega, if_true, if_false, mul_zero]
  · simp only [h1, show ¬g.steps v dt + g'.steps v dt ≤ t by omega, if_false, mul_zero]

/-- C103. In a steady state two waveguides of the same kind in series cannot be told apart from one with the sum of their lengths and phases,
whatever their names are. -/
theorem C103_steady {x y : Str} (hxy : x ≠ y) (z : Str) {g₁ g₂ : Wg} (h : g₁.Akin g₂) (wl : ℝ) :
    Alike wl (pair x y g₁ g₂) (.single z (g₁.joint g₂).part) := by
  refine ⟨rfl, fun emit heard a b => ?_⟩
  rw [responds_iff, responds_iff, meets_pair hxy (L₁ := fun u => g₁.amp wl * u) (L₂ := fun u => g₂.amp wl * u)
    (wg_steadyLaw wl emit heard x g₁) (wg_steadyLaw wl emit heard y g₂),
    meets_single (L := fun u => (g₁.joint g₂).amp wl * u) (wg_steadyLaw wl emit heard z _), joint_amp h, ← mul_assoc, ← mul_assoc, mul_comm (g₂.amp wl)]

/-- C103. In time, too, if the delays in time steps add up. (The full statement, without the condition, is false: `C103_violation`.) -/
theorem C103_time_partial {x y : Str} (hxy : x ≠ y) (z : Str) {g₁ g₂ : Wg} (h : g₁.Akin g₂) (wl v dt : ℝ)
    (hs : (g₁.joint g₂).steps v dt = g₁.steps v dt + g₂.steps v dt) :
    AlikeInTime wl v dt (pair x y g₁ g₂) (.single z (g₁.joint g₂).part) := by
  refine ⟨rfl, fun T emit heard a b => ?_⟩
  rw [respondsInTime_iff, respondsInTime_iff, meets_pair hxy (wg_movingLaw wl v dt T emit heard x g₁) (wg_movingLaw wl v dt T emit heard y g₂),
    meets_single (wg_movingLaw wl v dt T emit heard z _), lag_lag (joint_amp h wl).symm hs.symm,
    lag_lag (h := g₁.joint g₂) (by rw [joint_amp h, mul_comm]) (by rw [hs, add_comm])]

/-- C103. In time exactly then: two waveguides in series are one if and only if their delays in time steps add up. -/
theorem C103_iff_partial {x y : Str} (hxy : x ≠ y) (z : Str) {g₁ g₂ : Wg} (h : g₁.Akin g₂) (wl v dt : ℝ) :
    AlikeInTime wl v dt (pair x y g₁ g₂) (.single z (g₁.joint g₂).part) ↔
      (g₁.joint g₂).steps v dt = g₁.steps v dt + g₂.steps v dt := by
  refine ⟨fun ⟨_, H⟩ => ?_, C103_time_partial hxy z h wl v dt⟩
  have H := H ((g₁.joint g₂).steps v dt + 1) (fun _ _ => 0) (fun _ _ => 0)
  set T := (g₁.joint g₂).steps v dt + 1 with hT
  set u : Fin T → ℂ := fun t => if t.val = 0 then 1 else 0 with hu
  have h1 := H (fun t _ => if t = 0 then 1 else 0) fun t k => if ht : t < T then
    (if k = 0 then lag g₁ wl v dt (lag g₂ wl v dt u) ⟨t, ht⟩ else lag g₂ wl v dt (lag g₁ wl v dt u) ⟨t, ht⟩) else 0
  rw [respondsInTime_iff, respondsInTime_iff,
    meets_pair hxy (wg_movingLaw wl v dt T (fun _ _ => 0) (fun _ _ => 0) x g₁) (wg_movingLaw wl v dt T (fun _ _ => 0) (fun _ _ => 0) y g₂),
    meets_single (wg_movingLaw wl v dt T (fun _ _ => 0) (fun _ _ => 0) z _)] at h1
  have h2 := congrFun (h1.1 ⟨funext fun t => by rw [dif_pos t.2, if_pos rfl], funext fun t => by rw [dif_pos t.2, if_neg one_ne_zero]⟩).2
    ⟨(g₁.joint g₂).steps v dt, Nat.lt_succ_self _⟩
  rw [dif_pos (Nat.lt_succ_self _), if_neg one_ne_zero] at h2
  have hamp : ∀ g : Wg, g.amp wl ≠ 0 := by
    intro g
    unfold Wg.amp
    refine mul_ne_zero ?_ (Complex.exp_ne_zero _)
    exact_mod_cast (Real.rpow_pos_of_pos (by norm_num) _).ne'
  simp only [lag, hu, le_refl, if_true, Nat.sub_self] at h2
  have h3 : (g₁.joint g₂).amp wl * 1 ≠ 0 := mul_ne_zero (hamp _) one_ne_zero
  rw [← h2] at h3
  by_contra hne
  apply h3
  split_ifs <;> first | rfl | (exfalso; omega) | simp

/-- C103. The delays in time steps of two waveguides in series and of one differ by at most one step. -/
theorem C103_rounding {g₁ g₂ : Wg} (h : g₁.Akin g₂) (v dt : ℝ) (hdt : 0 < dt) (h₁ : 0 ≤ g₁.part.delay v) (h₂ : 0 ≤ g₂.part.delay v) :
    (g₁.joint g₂).steps v dt ≤ g₁.steps v dt + g₂.steps v dt + 1 ∧ g₁.steps v dt + g₂.steps v dt ≤ (g₁.joint g₂).steps v dt + 1 := by
  have hj : (g₁.joint g₂).part.delay v = g₁.part.delay v + g₂.part.delay v := by
    obtain ⟨l₁, o, n, w, m, p⟩ := g₁
    obtain ⟨l₂, o', n', w', m', p'⟩ := g₂
    obtain ⟨rfl, rfl, rfl, rfl⟩ := h
    show m * (l₁ + l₂) / v = m * l₁ / v + m * l₂ / v
    ring
  have key : ∀ g : Wg, 0 ≤ g.part.delay v → (g.steps v dt : ℝ) ≤ g.part.delay v / dt + 1 / 2 ∧ g.part.delay v / dt - 1 / 2 < g.steps v dt := by
    intro g hg
    have h0 : 0 ≤ g.part.delay v / dt := div_nonneg hg hdt.le
    rw [← wg_delay]
    unfold roundSteps
    have hnn : 0 ≤ ⌊g.part.delay v / dt + 1 / 2⌋ := Int.floor_nonneg.2 (by linarith)
    have e : ((⌊g.part.delay v / dt + 1 / 2⌋.toNat : ℕ) : ℝ) = (⌊g.part.delay v / dt + 1 / 2⌋ : ℝ) := by
      exact_mod_cast Int.toNat_of_nonneg hnn
    constructor
    · rw [e]; exact Int.floor_le _
    · rw [e]; linarith [Int.lt_floor_add_one (g.part.delay v / dt + 1 / 2)]
  obtain ⟨a1, a2⟩ := key g₁ h₁
  obtain ⟨b1, b2⟩ := key g₂ h₂
  obtain ⟨c1, c2⟩ := key (g₁.joint g₂) (by rw [hj]; linarith)
  rw [hj, add_div] at c1 c2
  constructor
  · have : ((g₁.joint g₂).steps v dt : ℝ) < (g₁.steps v dt + g₂.steps v dt + 2 : ℕ) := by push_cast; linarith
    have := Nat.cast_lt.1 this
    omega
  · have : ((g₁.steps v dt + g₂.steps v dt : ℕ) : ℝ) < ((g₁.joint g₂).steps v dt + 2 : ℕ) := by push_cast; linarith
    have := Nat.cast_lt.1 this
    omega

/-- C103. No light circulates in a waveguide, or two. -/
theorem C103_still (x y z : Str) (g₁ g₂ : Wg) (wl : ℝ) : Still wl (pair x y g₁ g₂) ∧ Still wl (.single z g₁.part) := by
  constructor
  · intro A B hS h0
    exact quiet_pair (law := steadyLaw wl (fun _ => 0) fun x => A x 0) (L₁ := fun u => g₁.amp wl * u) (L₂ := fun u => g₂.amp wl * u)
      (wg_steadyLaw wl _ _ x g₁) (wg_steadyLaw wl _ _ y g₂) (mul_zero _) (mul_zero _) A B
      ⟨hS.joined, fun q hq => ⟨hS.scattered q hq, fun _ => rfl⟩⟩ h0
  · intro A B hS h0
    exact quiet_single (law := steadyLaw wl (fun _ => 0) fun x => A x 0) A B ⟨hS.joined, fun q hq => ⟨hS.scattered q hq, fun _ => rfl⟩⟩ h0

/-- C103. Within one step neither. -/
theorem C103_still_time (x y z : Str) (g₁ g₂ : Wg) (wl v dt : ℝ) : StillInTime wl v dt (pair x y g₁ g₂) ∧ StillInTime wl v dt (.single z g₁.part) := by
  have key : ∀ {s : Sheet} {A B : ℕ → Str → ℕ → ℂ}, Moving s.parts s.conns wl v dt 1 (fun _ _ => 0) A B →
      Fits s.parts s.conns (movingLaw wl v dt 1 (fun _ _ => 0) fun t x => A t x 0) (fun x i (t : Fin 1) => A t x i) (fun x i (t : Fin 1) => B t x i) :=
    fun hS => ⟨fun a i b j hj => funext fun t => hS.joined t t.2 a i b j hj, fun q hq t => ⟨hS.scattered t t.2 q hq, fun _ => rfl⟩⟩
  have hz : ∀ g : Wg, lag g wl v dt (0 : Fin 1 → ℂ) = 0 := fun g => funext fun t => by simp [lag]
  constructor
  · intro A B hS h0 q hq i hi
    have := quiet_pair (wg_movingLaw wl v dt 1 _ _ x g₁) (wg_movingLaw wl v dt 1 _ _ y g₂) (hz _) (hz _) _ _ (key hS)
      (fun e he => funext fun t => by rw [Subsingleton.elim t 0]; exact h0 e he) q hq i hi
    exact congrFun this 0
  · intro A B hS h0 q hq i hi
    have := quiet_single _ _ (key hS) (fun e he => funext fun t => by rw [Subsingleton.elim t 0]; exact h0 e he) q hq i hi
    exact congrFun this 0

/-- Two waveguides with a delay of 0.3 steps each, and one with 0.6: told apart. -/
example : ¬AlikeInTime 1.55e-6 1 1 (pair "x".toList "y".toList ⟨0.3, 0, 1, 1.55e-6, 1, 0⟩ ⟨0.3, 0, 1, 1.55e-6, 1, 0⟩)
    (.single "z".toList (Wg.joint ⟨0.3, 0, 1, 1.55e-6, 1, 0⟩ ⟨0.3, 0, 1, 1.55e-6, 1, 0⟩).part) := by
  rw [C103_iff_partial (by decide) _ ⟨rfl, rfl, rfl, rfl⟩]
  have e1 : ⌊(1 * 0.3 / 1 / 1 + 1 / 2 : ℝ)⌋ = 0 := by rw [Int.floor_eq_iff]; constructor <;> norm_num
  have e2 : ⌊(1 * (0.3 + 0.3) / 1 / 1 + 1 / 2 : ℝ)⌋ = 1 := by rw [Int.floor_eq_iff]; constructor <;> norm_num
  simp only [Wg.steps, Wg.joint, e1, e2]
  decide

/-! ## A row of waveguides between a source and a detector -/

noncomputable def longParts (g₁ g₂ : Wg) : List (Str × Part) :=
  [("s".toList, .source), ("first".toList, g₁.part), ("second".toList, g₂.part), ("d".toList, .detector)]

def longConns : List Conn :=
  [.inner "s".toList 0 "first".toList 0, .inner "first".toList 1 "second".toList 0, .inner "second".toList 1 "d".toList 0]

noncomputable def shortParts (g : Wg) : List (Str × Part) := [("s".toList, .source), ("first".toList, g.part), ("d".toList, .detector)]

def shortConns : List Conn := [.inner "s".toList 0 "first".toList 0, .inner "first".toList 1 "d".toList 0]

theorem long_closed (g₁ g₂ : Wg) : Closed (longParts g₁ g₂) longConns where
  names := by
    show ["s".toList, "first".toList, "second".toList, "d".toList].Nodup
    decide
  good := by
    intro q hq
    simp only [longParts, List.mem_cons, List.not_mem_nil, or_false] at hq
    rcases hq with rfl | rfl | rfl | rfl <;> dsimp only <;> exact ⟨by decide, by decide, by decide⟩
  sized := by
    intro q hq
    simp only [longParts, List.mem_cons, List.not_mem_nil, or_false] at hq
    rcases hq with rfl | rfl | rfl | rfl <;> simp [Part.n, Wg.part]
  nonempty := by simp [longParts]
  ports := by
    show List.Perm _ [("s".toList, 0), ("first".toList, 0), ("first".toList, 1), ("second".toList, 0), ("second".toList, 1), ("d".toList, 0)]
    decide
  inner := rfl

theorem short_closed (g : Wg) : Closed (shortParts g) shortConns where
  names := by
    show ["s".toList, "first".toList, "d".toList].Nodup
    decide
  good := by
    intro q hq
    simp only [shortParts, List.mem_cons, List.not_mem_nil, or_false] at hq
    rcases hq with rfl | rfl | rfl <;> dsimp only <;> exact ⟨by decide, by decide, by decide⟩
  sized := by
    intro q hq
    simp only [shortParts, List.mem_cons, List.not_mem_nil, or_false] at hq
    rcases hq with rfl | rfl | rfl <;> simp [Part.n, Wg.part]
  nonempty := by simp [shortParts]
  ports := by
    show List.Perm _ [("s".toList, 0), ("first".toList, 0), ("first".toList, 1), ("d".toList, 0)]
    decide
  inner := rfl

/-- A waveguide in which light travels for 0.6 time steps. -/
noncomputable def stub (v dt : ℝ) : Wg := ⟨3 / 5 * (v * dt), 0, 1, 1, 1, 0⟩

theorem stub_steps {v dt : ℝ} (hv : 0 < v) (hdt : 0 < dt) : (stub v dt).steps v dt = 1 ∧ ((stub v dt).joint (stub v dt)).steps v dt = 1 := by
  unfold Wg.steps Wg.joint stub
  dsimp only
  rw [show 1 * (3 / 5 * (v * dt)) / v / dt = 3 / 5 by field_simp, show 1 * (3 / 5 * (v * dt) + 3 / 5 * (v * dt)) / v / dt = 6 / 5 by field_simp; norm_num]
  rw [show ⌊(3 / 5 : ℝ) + 1 / 2⌋ = 1 by rw [Int.floor_eq_iff]; norm_num, show ⌊(6 / 5 : ℝ) + 1 / 2⌋ = 1 by rw [Int.floor_eq_iff]; norm_num]
  simp

theorem amp_ne (g : Wg) (wl : ℝ) : g.amp wl ≠ 0 := by
  unfold Wg.amp
  refine mul_ne_zero ?_ (Complex.exp_ne_zero _)
  exact_mod_cast (Real.rpow_pos_of_pos (by norm_num : (0 : ℝ) < 10) _).ne'

theorem moving_wg {parts : List (Str × Part)} {cs : List Conn} {wl v dt : ℝ} {T : ℕ} {emit : ℕ → Str → ℂ} {A B : ℕ → Str → ℕ → ℂ}
    (h : Moving parts cs wl v dt T emit A B) {x : Str} {g : Wg} (hx : (x, g.part) ∈ parts) {t : ℕ} (ht : t < T) :
    B t x 0 = g.amp wl * (if g.steps v dt ≤ t then A (t - g.steps v dt) x 1 else 0) ∧
    B t x 1 = g.amp wl * (if g.steps v dt ≤ t then A (t - g.steps v dt) x 0 else 0) := by
  have e := Crow.wg_scatter g wl fun j => if g.steps v dt ≤ t then A (t - g.steps v dt) x j else 0
  exact ⟨(h.scattered t ht _ hx (0 : Fin 2)).trans ((add_zero _).trans e.1), (h.scattered t ht _ hx (1 : Fin 2)).trans ((add_zero _).trans e.2)⟩

/-- C103, the full statement refuted: in the time domain a waveguide and two waveguides of the same kind with half its length are told apart,
because the delay of each waveguide is rounded to time steps. For every time step there are waveguides such that light arrives
through one after one step, through the other two after two. -/
theorem C103_violation (v wl dt : ℝ) (hv : 0 < v) (hpos : 0 < dt) (env : SimEnv) (hfd : env.freqdomain = false) (hdt : env.dt = some dt)
    (ht : 2 ≤ env.t.length) : ∃ (g₁ g₂ : Wg), g₁.Akin g₂ ∧ ∃ d d' r r' out out',
      mkDev none ((longParts g₁ g₂).map fun q => (q.1, q.2.dev)) (longConns.map Conn.text) = .ok d ∧
      mkDev none ((shortParts (g₁.joint g₂)).map fun q => (q.1, q.2.dev)) (shortConns.map Conn.text) = .ok d' ∧
      initNet (d.plant v fun _ : Unit => wl) env = .ok (some r) ∧ initNet (d'.plant v fun _ : Unit => wl) env = .ok (some r') ∧
      forwardReduced r env ([] : List (Actor Unit Unit)) (fun _ _ _ _ => (1, 0)) = .ok out ∧
      forwardReduced r' env ([] : List (Actor Unit Unit)) (fun _ _ _ _ => (1, 0)) = .ok out' ∧
      ∃ o o', out[1]? = some o ∧ out'[1]? = some o' ∧ (o () ()).map asComplex = [0] ∧ ∃ z ≠ 0, (o' () ()).map asComplex = [z] := by
  obtain ⟨s1, s2⟩ := stub_steps hv hpos
  set g := stub v dt with hg
  refine ⟨g, g, ⟨rfl, rfl, rfl, rfl⟩, ?_⟩
  have hh : ∀ g : Wg, g.steps v dt = 1 → Holds env v g.part := fun g h => .inr (.inr ⟨hfd, dt, hdt, by rw [wg_delay, h]; exact one_pos⟩)
  have C1 := long_closed g g
  have C2 := short_closed (g.joint g)
  obtain ⟨d, hd⟩ := C94_built C1 none
  obtain ⟨d', hd'⟩ := C94_built C2 none
  obtain ⟨r, hr⟩ := (C94_initialized C1 none d hd v (fun _ : Unit => wl) env ⟨("s".toList, .source), by simp [longParts], .inl rfl⟩).1 (by
    intro w A B hT q hq i hi
    refine (hT.held q hq ?_ i hi).1
    simp only [longParts, List.mem_cons, List.not_mem_nil, or_false] at hq
    rcases hq with rfl | rfl | rfl | rfl
    · exact .inl rfl
    · exact hh _ s1
    · exact hh _ s1
    · exact .inr (.inl rfl))
  obtain ⟨r', hr'⟩ := (C94_initialized C2 none d' hd' v (fun _ : Unit => wl) env ⟨("s".toList, .source), by simp [shortParts], .inl rfl⟩).1 (by
    intro w A B hT q hq i hi
    refine (hT.held q hq ?_ i hi).1
    simp only [shortParts, List.mem_cons, List.not_mem_nil, or_false] at hq
    rcases hq with rfl | rfl | rfl
    · exact .inl rfl
    · exact hh _ s2
    · exact .inr (.inl rfl))
  obtain ⟨out, ho, hlen, H⟩ := C94_time C1 ⟨("d".toList, .detector), by simp [longParts], rfl⟩ none d hd v (fun _ : Unit => wl) env dt hdt hpos hfd r hr
    ([] : List (Actor Unit Unit)) (fun _ _ _ _ => (1, 0))
  obtain ⟨out', ho', hlen', H'⟩ := C94_time C2 ⟨("d".toList, .detector), by simp [shortParts], rfl⟩ none d' hd' v (fun _ : Unit => wl) env dt hdt hpos hfd r' hr'
    ([] : List (Actor Unit Unit)) (fun _ _ _ _ => (1, 0))
  refine ⟨d, d', r, r', out, out', hd, hd', hr, hr', ho, ho', out[1], out'[1], List.getElem?_eq_getElem (by omega), List.getElem?_eq_getElem (by omega), ?_, ?_⟩
  · obtain ⟨⟨A, B, hM⟩, H⟩ := H () ()
    rw [H A B hM 1 (by omega)]
    have el : listeners (longParts g g) longConns = ["d".toList] := rfl
    rw [el, List.map_cons, List.map_nil]
    have m1 : ("first".toList, g.part) ∈ longParts g g := by simp [longParts]
    have m2 : ("second".toList, g.part) ∈ longParts g g := by simp [longParts]
    have j2 : PT.Spec.Joined longConns "first".toList 1 "second".toList 0 := Or.inl (by decide)
    have j3 : PT.Spec.Joined longConns "second".toList 1 "d".toList 0 := Or.inl (by decide)
    have b2 := (moving_wg hM m2 (t := 1) (by omega)).2
    have b1 := (moving_wg hM m1 (t := 0) (by omega)).2
    rw [s1] at b1 b2
    have a2 := hM.joined 0 (by omega) _ _ _ _ (joined_symm j2)
    have a3 := hM.joined 1 (by omega) _ _ _ _ (joined_symm j3)
    rw [if_neg (by omega), mul_zero] at b1
    rw [if_pos (le_refl _), Nat.sub_self, a2] at b2
    have e : A 1 "d".toList 0 = 0 := a3.trans (b2.trans ((congrArg _ b1).trans (mul_zero _)))
    rw [e]
  · obtain ⟨⟨A, B, hM⟩, H⟩ := H' () ()
    refine ⟨_, ?_, H A B hM 1 (by omega)⟩
    have ms : ("s".toList, Part.source) ∈ shortParts (g.joint g) := by simp [shortParts]
    have m1 : ("first".toList, (g.joint g).part) ∈ shortParts (g.joint g) := by simp [shortParts]
    have j1 : PT.Spec.Joined shortConns "s".toList 0 "first".toList 0 := Or.inl (by decide)
    have j3 : PT.Spec.Joined shortConns "first".toList 1 "d".toList 0 := Or.inl (by decide)
    have b1 := (moving_wg hM m1 (t := 1) (by omega)).2
    have b0 : B 0 "s".toList 0 = 1 := by
      refine (hM.scattered 0 (by omega) _ ms (0 : Fin 1)).trans ?_
      rw [Finset.sum_eq_zero fun j _ => by rw [ends_dark _ wl (Or.inl rfl), zero_mul], zero_add]
      refine (if_pos (show isSource Part.source = true from rfl)).trans ?_
      simp [asComplex, Complex.ext_iff]
    rw [s2] at b1
    have a1 := hM.joined 0 (by omega) _ _ _ _ (joined_symm j1)
    have a3 := hM.joined 1 (by omega) _ _ _ _ (joined_symm j3)
    rw [if_pos (le_refl _), Nat.sub_self, a1] at b1
    dsimp only
    rw [a3, b1, b0, mul_one]
    exact amp_ne _ _

/-- The hypothesis of `C103_time_partial` holds for whole numbers of steps. -/
example (v dt : ℝ) (hv : 0 < v) (hdt : 0 < dt) (m n : ℕ) (g₁ g₂ : Wg) (h : g₁.Akin g₂) (h₁ : g₁.ng * g₁.length = m * (v * dt))
    (h₂ : g₂.ng * g₂.length = n * (v * dt)) : (g₁.joint g₂).steps v dt = g₁.steps v dt + g₂.steps v dt := by
  have e : ∀ k : ℕ, ⌊(k : ℝ) + 1 / 2⌋.toNat = k := fun k => by
    rw [show ⌊(k : ℝ) + 1 / 2⌋ = (k : ℤ) by rw [Int.floor_eq_iff]; constructor <;> push_cast <;> linarith]
    simp
  have h3 : (g₁.joint g₂).ng * (g₁.joint g₂).length = ((m + n : ℕ) : ℝ) * (v * dt) := by
    unfold Wg.joint
    dsimp only
    rw [mul_add, h₁, h.2.2.2, h₂]
    push_cast
    ring
  have f : ∀ k : ℕ, (k : ℝ) * (v * dt) / v / dt = k := fun k => by field_simp
  unfold Wg.steps
  rw [h₁, h₂, h3, f, f, f, e, e, e]

/-! ## The row of three waveguides with the first two replaced by one -/

noncomputable def sheetPair (g₁ g₂ g₃ : Wg) (x : Str) : Sheet :=
  if x = "box".toList then pair "first".toList "second".toList g₁ g₂ else .single "third".toList g₃.part

noncomputable def sheetOne (g₁ g₂ g₃ : Wg) (x : Str) : Sheet :=
  if x = "box".toList then .single "whole".toList (g₁.joint g₂).part else .single "third".toList g₃.part

/-- The box of two waveguides in the network of C96. -/
theorem pair_box (g₁ g₂ : Wg) : ∃ d, mkDev none [("a".toList, g₁.part.dev), ("b".toList, g₂.part.dev)] (boxA.map Conn.text) = .ok d ∧
    Drawn d (pair "first".toList "second".toList g₁ g₂) := by
  obtain ⟨d, hd, hD⟩ := C96_built_declared none [("a".toList, g₁.part), ("b".toList, g₂.part)] boxA
    (fun x => if x = "a".toList then "first".toList else "second".toList) (sheetA g₁ g₂) [("a".toList, 0), ("b".toList, 1)] (by
      intro q hq
      simp only [List.mem_cons, List.not_mem_nil, or_false] at hq
      rcases hq with rfl | rfl
      · exact ⟨by simp [Wg.part], rfl⟩
      · exact ⟨by simp [Wg.part], rfl⟩) (by
      intro x hx
      have hx' : x ∈ ["a".toList, "b".toList] := hx
      simp only [List.mem_cons, List.not_mem_nil, or_false] at hx'
      rcases hx' with rfl | rfl
      · exact ⟨_, rfl⟩
      · exact ⟨_, rfl⟩) (goodConns_dec (by decide)) (by simp [boxA]) (by
      show List.Perm _ [("a".toList, 0), ("a".toList, 1), ("b".toList, 0), ("b".toList, 1)]
      decide) (by decide)
  exact ⟨d, hd, hD⟩

/-- Both the box and the single waveguide can be put before a third waveguide, and the two networks respond alike. -/
example (g₁ g₂ g₃ : Wg) (h : g₁.Akin g₂) (wl : ℝ) :
    Alike wl (.merge (sheetPair g₁ g₂ g₃) boxB [("box".toList, 0), ("c".toList, 1)])
      (.merge (sheetOne g₁ g₂ g₃) boxB [("box".toList, 0), ("c".toList, 1)]) := by
  obtain ⟨dA, -, hA⟩ := pair_box g₁ g₂
  have hx : ∀ x ∈ firstMentions boxB, x = "box".toList ∨ x = "c".toList := by
    intro x hx
    have hx' : x ∈ ["box".toList, "c".toList] := hx
    simpa only [List.mem_cons, List.not_mem_nil, or_false] using hx'
  refine C102_alike wl (fun x h => ?_) (fun x h => ?_) ?_ ?_ ?_ (fun x h' => ?_)
  · rcases hx x h with rfl | rfl
    · exact ⟨dA, hA⟩
    · exact ⟨_, .part _ _ (by simp [Wg.part])⟩
  · rcases hx x h with rfl | rfl
    · exact ⟨_, .part _ _ (by simp [Wg.part])⟩
    · exact ⟨_, .part _ _ (by simp [Wg.part])⟩
  · show ∀ e ∈ endpoints boxB ++ _, e ∈ [("box".toList, 0), ("box".toList, 1), ("c".toList, 0), ("c".toList, 1)]
    decide
  · show ["first".toList, "second".toList, "third".toList].Nodup
    decide
  · show ["whole".toList, "third".toList].Nodup
    decide
  · rcases hx x h' with rfl | rfl
    · exact C103_steady (by decide) _ h wl
    · exact ⟨rfl, fun _ _ _ _ => Iff.rfl⟩

/-! ## Source, box, detector -/

noncomputable def frame (box : Sheet) (x : Str) : Sheet :=
  if x = "box".toList then box else if x = "s".toList then .single "s".toList .source else .single "d".toList .detector

theorem frame_drawn {box : Sheet} {e : Dev} (he : Drawn e box) (hlen : box.free.length = 2)
    (hn : ((Sheet.merge (frame box) boxC []).parts.map Prod.fst).Nodup) :
    ∃ d, mkDev none [("s".toList, Part.source.dev), ("box".toList, e), ("d".toList, Part.detector.dev)] (boxC.map Conn.text) = .ok d ∧
      Drawn d (.merge (frame box) boxC []) := by
  have hb : boxPorts (frame box) boxC = [("s".toList, 0), ("box".toList, 0), ("box".toList, 1), ("d".toList, 0)] := by
    unfold boxPorts
    rw [show firstMentions boxC = ["s".toList, "box".toList, "d".toList] from rfl]
    simp only [List.flatMap_cons, List.flatMap_nil]
    rw [show frame box "s".toList = .single "s".toList .source from rfl, show frame box "box".toList = box from rfl, hlen]
    rfl
  have hr : (boxPorts (frame box) boxC).filter (fun e => decide (e ∉ endpoints boxC)) = [] := by
    rw [hb]
    decide
  obtain ⟨d, hd, hd'⟩ := C96_built none [("s".toList, Part.source.dev), ("box".toList, e), ("d".toList, Part.detector.dev)] boxC
    (frame box) (by
      intro q hq
      simp only [List.mem_cons, List.not_mem_nil, or_false] at hq
      rcases hq with rfl | rfl | rfl
      · exact .part _ _ (by simp)
      · exact he
      · exact .part _ _ (by simp)) (by
      intro x hx
      have hx' : x ∈ ["s".toList, "box".toList, "d".toList] := hx
      simp only [List.mem_cons, List.not_mem_nil, or_false] at hx'
      rcases hx' with rfl | rfl | rfl
      · exact ⟨_, rfl⟩
      · exact ⟨_, rfl⟩
      · exact ⟨_, rfl⟩) (goodConns_dec (by decide)) (by simp [boxC]) rfl (by decide) (by
      rw [hb]
      decide) hn
  rw [hr] at hd'
  exact ⟨d, hd, hd'⟩

/-- The hypotheses of `C102_initialized` and `C102_frequency` are met: a source, a box and a detector, with two waveguides or one in the box. -/
example (g₁ g₂ : Wg) (h : g₁.Akin g₂) (wl : ℕ → ℝ) (env : SimEnv) (hfd : env.freqdomain = true) (ht1 : env.t.length = 1) :
    ∃ d d', Drawn d (.merge (frame (pair "first".toList "second".toList g₁ g₂)) boxC []) ∧
      Drawn d' (.merge (frame (.single "whole".toList (g₁.joint g₂).part)) boxC []) ∧
      ((∃ r, initNet (d.plant 299792458 wl) env = .ok (some r)) ↔ ∃ r, initNet (d'.plant 299792458 wl) env = .ok (some r)) ∧
      ∀ r r', initNet (d.plant 299792458 wl) env = .ok (some r) → initNet (d'.plant 299792458 wl) env = .ok (some r') →
        ∀ light : ℕ → Unit → ℝ × ℝ, ∃ o o', forwardReduced r env [] (fun _ _ => light) = .ok [o] ∧
          forwardReduced r' env [] (fun _ _ => light) = .ok [o'] ∧ ∀ w b, (o w b).map asComplex = (o' w b).map asComplex := by
  obtain ⟨e, -, he⟩ := pair_box g₁ g₂
  have he' : Drawn (g₁.joint g₂).part.dev (.single "whole".toList (g₁.joint g₂).part) := .part _ _ (by simp [Wg.part])
  have hn : ((Sheet.merge (frame (pair "first".toList "second".toList g₁ g₂)) boxC []).parts.map Prod.fst).Nodup := by
    show ["s".toList, "first".toList, "second".toList, "d".toList].Nodup
    decide
  have hn' : ((Sheet.merge (frame (.single "whole".toList (g₁.joint g₂).part)) boxC []).parts.map Prod.fst).Nodup := by
    show ["s".toList, "whole".toList, "d".toList].Nodup
    decide
  obtain ⟨d, -, hD⟩ := frame_drawn he rfl hn
  obtain ⟨d', -, hD'⟩ := frame_drawn he' rfl hn'
  have hx : ∀ x ∈ firstMentions boxC, x = "s".toList ∨ x = "box".toList ∨ x = "d".toList := by
    intro x hx
    have hx' : x ∈ ["s".toList, "box".toList, "d".toList] := hx
    simpa only [List.mem_cons, List.not_mem_nil, or_false] using hx'
  have hm : ∀ {box : Sheet} {e : Dev}, Drawn e box → ∀ x ∈ firstMentions boxC, ∃ d, Drawn d (frame box x) := by
    intro box e he x h
    rcases hx x h with rfl | rfl | rfl
    · exact ⟨_, .part _ _ (by simp)⟩
    · exact ⟨e, he⟩
    · exact ⟨_, .part _ _ (by simp)⟩
  have hA : ∀ w, ∀ x ∈ firstMentions boxC, Alike (wl w) (frame (pair "first".toList "second".toList g₁ g₂) x)
      (frame (.single "whole".toList (g₁.joint g₂).part) x) := by
    intro w x h'
    rcases hx x h' with rfl | rfl | rfl
    · exact ⟨rfl, fun _ _ _ _ => Iff.rfl⟩
    · exact C103_steady (by decide) _ h _
    · exact ⟨rfl, fun _ _ _ _ => Iff.rfl⟩
  have hS1 : ∀ (x : Str) (p : Part) (wl : ℝ), Still wl (.single x p) := by
    intro x p wl A B _ h0 q hq i hi
    obtain rfl : q = (x, p) := by simpa [Sheet.single] using hq
    have := h0 (x, (i : ℤ)) (mem_portNames.mpr ⟨_, List.mem_singleton.mpr rfl, i, hi, rfl⟩)
    simpa using this
  have hp : ∀ e ∈ endpoints boxC, e ∈ boxPorts (frame (pair "first".toList "second".toList g₁ g₂)) boxC := by
    show ∀ e ∈ endpoints boxC, e ∈ [("s".toList, 0), ("box".toList, 0), ("box".toList, 1), ("d".toList, 0)]
    decide
  have hdet : ∃ q ∈ (Sheet.merge (frame (pair "first".toList "second".toList g₁ g₂)) boxC []).parts, isDetector q.2 = true :=
    ⟨("d".toList, .detector), by
      show ("d".toList, Part.detector) ∈ [("s".toList, Part.source), ("first".toList, g₁.part), ("second".toList, g₂.part), ("d".toList, Part.detector)]
      simp, rfl⟩
  have hdet' : ∃ q ∈ (Sheet.merge (frame (.single "whole".toList (g₁.joint g₂).part)) boxC []).parts, isDetector q.2 = true :=
    ⟨("d".toList, .detector), by
      show ("d".toList, Part.detector) ∈ [("s".toList, Part.source), ("whole".toList, (g₁.joint g₂).part), ("d".toList, Part.detector)]
      simp, rfl⟩
  refine ⟨d, d', hD, hD', ?_, fun r r' hr hr' light => ?_⟩
  · refine (C102_initialized hD hD' (hm he) (hm he') hp hn hn' hdet hdet' 299792458 wl hA (fun w x h => ?_) (fun w x h => ?_) env hfd).1
    · rcases hx x h with rfl | rfl | rfl
      · exact hS1 _ _ _
      · exact (C103_still _ _ [] g₁ g₂ _).1
      · exact hS1 _ _ _
    · rcases hx x h with rfl | rfl | rfl
      · exact hS1 _ _ _
      · exact hS1 _ _ _
      · exact hS1 _ _ _
  · have hA' : ∀ w, Alike (wl w) (.merge (frame (pair "first".toList "second".toList g₁ g₂)) boxC [])
        (.merge (frame (.single "whole".toList (g₁.joint g₂).part)) boxC []) :=
      fun w => C102_alike (wl w) (hm he) (hm he') (by simpa using hp) hn hn' (hA w)
    obtain ⟨o, o', ho, ho', H⟩ := C102_frequency hD hD' rfl rfl hn hn' hdet hdet' 299792458 wl hA' env hfd ht1 r r' hr hr'
      ([] : List (Actor ℕ Unit)) [] (fun _ _ => light)
    refine ⟨o, o', ho, ho', fun w b => ?_⟩
    obtain ⟨seen, h1, h2⟩ := H w b
    exact h1.trans h2.symm

/-- The same in the time domain, if the delays in steps add up. -/
example (g₁ g₂ : Wg) (h : g₁.Akin g₂) (wl : ℕ → ℝ) (env : SimEnv) (hfd : env.freqdomain = false) (dt : ℝ)
    (hdt : env.dt = some dt) (hpos : 0 < dt) (hs : (g₁.joint g₂).steps 299792458 dt = g₁.steps 299792458 dt + g₂.steps 299792458 dt) :
    ∃ d d', Drawn d (.merge (frame (pair "first".toList "second".toList g₁ g₂)) boxC []) ∧
      Drawn d' (.merge (frame (.single "whole".toList (g₁.joint g₂).part)) boxC []) ∧
      ((∃ r, initNet (d.plant 299792458 wl) env = .ok (some r)) ↔ ∃ r, initNet (d'.plant 299792458 wl) env = .ok (some r)) ∧
      ∀ r r', initNet (d.plant 299792458 wl) env = .ok (some r) → initNet (d'.plant 299792458 wl) env = .ok (some r') →
        ∀ light : ℕ → Unit → ℝ × ℝ, ∃ out out', forwardReduced r env [] (fun _ _ => light) = .ok out ∧
          forwardReduced r' env [] (fun _ _ => light) = .ok out' ∧ out.length = out'.length ∧ ∀ w b t (ht : t < out.length) (ht' : t < out'.length),
            (out[t] w b).map asComplex = (out'[t] w b).map asComplex := by
  obtain ⟨e, -, he⟩ := pair_box g₁ g₂
  have he' : Drawn (g₁.joint g₂).part.dev (.single "whole".toList (g₁.joint g₂).part) := .part _ _ (by simp [Wg.part])
  have hn : ((Sheet.merge (frame (pair "first".toList "second".toList g₁ g₂)) boxC []).parts.map Prod.fst).Nodup := by
    show ["s".toList, "first".toList, "second".toList, "d".toList].Nodup
    decide
  have hn' : ((Sheet.merge (frame (.single "whole".toList (g₁.joint g₂).part)) boxC []).parts.map Prod.fst).Nodup := by
    show ["s".toList, "whole".toList, "d".toList].Nodup
    decide
  obtain ⟨d, -, hD⟩ := frame_drawn he rfl hn
  obtain ⟨d', -, hD'⟩ := frame_drawn he' rfl hn'
  have hx : ∀ x ∈ firstMentions boxC, x = "s".toList ∨ x = "box".toList ∨ x = "d".toList := by
    intro x hx
    have hx' : x ∈ ["s".toList, "box".toList, "d".toList] := hx
    simpa only [List.mem_cons, List.not_mem_nil, or_false] using hx'
  have hm : ∀ {box : Sheet} {e : Dev}, Drawn e box → ∀ x ∈ firstMentions boxC, ∃ d, Drawn d (frame box x) := by
    intro box e he x h
    rcases hx x h with rfl | rfl | rfl
    · exact ⟨_, .part _ _ (by simp)⟩
    · exact ⟨e, he⟩
    · exact ⟨_, .part _ _ (by simp)⟩
  have hA : ∀ w, ∀ x ∈ firstMentions boxC, AlikeInTime (wl w) 299792458 dt (frame (pair "first".toList "second".toList g₁ g₂) x)
      (frame (.single "whole".toList (g₁.joint g₂).part) x) := by
    intro w x h'
    rcases hx x h' with rfl | rfl | rfl
    · exact ⟨rfl, fun _ _ _ _ _ => Iff.rfl⟩
    · exact C103_time_partial (by decide) _ h _ _ _ hs
    · exact ⟨rfl, fun _ _ _ _ _ => Iff.rfl⟩
  have hS1 : ∀ (x : Str) (p : Part) (wl : ℝ), StillInTime wl 299792458 dt (.single x p) := by
    intro x p wl A B _ h0 q hq i hi
    obtain rfl : q = (x, p) := by simpa [Sheet.single] using hq
    have := h0 (x, (i : ℤ)) (mem_portNames.mpr ⟨_, List.mem_singleton.mpr rfl, i, hi, rfl⟩)
    simpa using this
  have hp : ∀ e ∈ endpoints boxC, e ∈ boxPorts (frame (pair "first".toList "second".toList g₁ g₂)) boxC := by
    show ∀ e ∈ endpoints boxC, e ∈ [("s".toList, 0), ("box".toList, 0), ("box".toList, 1), ("d".toList, 0)]
    decide
  have hdet : ∃ q ∈ (Sheet.merge (frame (pair "first".toList "second".toList g₁ g₂)) boxC []).parts, isDetector q.2 = true :=
    ⟨("d".toList, .detector), by
      show ("d".toList, Part.detector) ∈ [("s".toList, Part.source), ("first".toList, g₁.part), ("second".toList, g₂.part), ("d".toList, Part.detector)]
      simp, rfl⟩
  have hdet' : ∃ q ∈ (Sheet.merge (frame (.single "whole".toList (g₁.joint g₂).part)) boxC []).parts, isDetector q.2 = true :=
    ⟨("d".toList, .detector), by
      show ("d".toList, Part.detector) ∈ [("s".toList, Part.source), ("whole".toList, (g₁.joint g₂).part), ("d".toList, Part.detector)]
      simp, rfl⟩
  refine ⟨d, d', hD, hD', ?_, fun r r' hr hr' light => ?_⟩
  · refine (C102_initialized_time hD hD' (hm he) (hm he') hp hn hn' hdet hdet' 299792458 wl env hfd dt hdt hA (fun w x h => ?_) (fun w x h => ?_)).1
    · rcases hx x h with rfl | rfl | rfl
      · exact hS1 _ _ _
      · exact (C103_still_time _ _ [] g₁ g₂ _ _ _).1
      · exact hS1 _ _ _
    · rcases hx x h with rfl | rfl | rfl
      · exact hS1 _ _ _
      · exact hS1 _ _ _
      · exact hS1 _ _ _
  · have hA' : ∀ w, AlikeInTime (wl w) 299792458 dt (.merge (frame (pair "first".toList "second".toList g₁ g₂)) boxC [])
        (.merge (frame (.single "whole".toList (g₁.joint g₂).part)) boxC []) :=
      fun w => C102_alike_time (wl w) 299792458 dt (hm he) (hm he') (by simpa using hp) hn hn' (hA w)
    obtain ⟨out, out', ho, ho', hl, hl', H⟩ := C102_time hD hD' rfl rfl hn hn' hdet hdet' 299792458 wl env dt hdt hpos hfd hA' r r' hr hr'
      ([] : List (Actor ℕ Unit)) [] (fun _ _ => light)
    refine ⟨out, out', ho, ho', hl.trans hl'.symm, fun w b t ht ht' => ?_⟩
    obtain ⟨seen, hseen⟩ := H w b
    exact (hseen t ht ht').1.trans (hseen t ht ht').2.symm

end PT
