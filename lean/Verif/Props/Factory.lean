import Verif.Model.Factory
import Verif.Props.Train
import Verif.Props.Arrival

/-!
# C125: a mesh made without further arguments can be trained to every unitary matrix, and to nothing else
-/

namespace PT
open Spec

/-- A history of training: what is added to the registered parameters, step by step. -/
abbrev Spec.Steps := List ((Str → ℝ) × (ℕ → ℕ → ℕ → ℝ))

/-- The component `p` is what the constructor call `c` made, after the training `δs`. -/
def Spec.Becomes (c : Call) (δs : Steps) (p : Part) : Prop :=
  ∃ o, c.new = .ok o ∧ (δs.foldl Obj.train o).dev = .ok p.dev

theorem becomes_mzi (r s : ℝ) (δs : Steps) : Becomes (mziFactory r s) δs
    (.mzi (2 * Real.pi * r + added δs ['p', 'h', 'i']) (2 * Real.pi * s + added δs ['t', 'h', 'e', 't', 'a']) 2.34 3.40 1.55e-6 1e-5 0) := by
  obtain ⟨o, ho⟩ := (C117_accepts (mziFactory r s)).1 trivial
  obtain ⟨p, h1, h2, -, -, -, h3⟩ := C117_trained _ o ho δs
  refine ⟨o, ho, h1.trans ?_⟩
  unfold mziFactory at h2 h3
  simp only [asked] at h2
  cases h2 <;> simp only [Moves] at h3 <;> rw [← h3.1, ← h3.2]

theorem becomes_wg (r : ℝ) (δs : Steps) : Becomes (wgFactory r) δs
    (.waveguide 1e-5 0 2.34 1.55e-6 3.40 (2 * Real.pi * r + added δs ['p', 'h', 'a', 's', 'e'])) := by
  obtain ⟨o, ho⟩ := (C117_accepts (wgFactory r)).1 trivial
  obtain ⟨p, h1, h2, -, -, -, h3⟩ := C117_trained _ o ho δs
  refine ⟨o, ho, h1.trans ?_⟩
  unfold wgFactory at h2 h3
  simp only [asked] at h2
  cases h2 <;> simp only [Moves] at h3 <;> rw [← h3]

/-- One step that adds `x` to every registered parameter called `a` and `y` to every other. -/
def stepOf (a : Str) (x y : ℝ) : Steps := [(fun b => if b = a then x else y, fun _ _ _ => 0)]

theorem stepOf_added (a : Str) (x y : ℝ) (b : Str) : added (stepOf a x y) b = if b = a then x else y := by
  simp [added, stepOf]

theorem reach_mzi (r s φ θ : ℝ) : ∃ δ, Becomes (mziFactory r s) [δ] (.mzi φ θ 2.34 3.40 1.55e-6 1e-5 0) := by
  have := becomes_mzi r s (stepOf ['p', 'h', 'i'] (φ - 2 * Real.pi * r) (θ - 2 * Real.pi * s))
  rw [stepOf_added, stepOf_added, if_pos rfl, if_neg (by decide), add_sub_cancel, add_sub_cancel] at this
  exact ⟨_, this⟩

theorem reach_wg (r φ : ℝ) : ∃ δ, Becomes (wgFactory r) [δ] (.waveguide 1e-5 0 2.34 1.55e-6 3.40 φ) := by
  have := becomes_wg r (stepOf ['p', 'h', 'a', 's', 'e'] (φ - 2 * Real.pi * r) 0)
  rw [stepOf_added, if_pos rfl, add_sub_cancel] at this
  exact ⟨_, this⟩

/-- C125. `ReckNxN(N)` is unitary, whatever the random numbers and however it is trained; and for every unitary matrix and every
wavelength there is a training step after which the network realizes the matrix. -/
theorem C125_reck (N : ℕ) (hN : 2 ≤ N) (r s : ℕ → ℕ → ℝ) (q : ℕ → ℝ) (newName : Str) :
    (∀ (δ : ℕ → ℕ → Steps) (ε : ℕ → Steps), ∃ (mz : ℕ → ℕ → Part) (wg : ℕ → Part) (d d' : Dev),
      (∀ m i, Becomes (mziFactory (r m i) (s m i)) (δ m i) (mz m i)) ∧ (∀ m, Becomes (wgFactory (q m)) (ε m) (wg m)) ∧
      reck N mz wg = .ok d ∧ termDev newName reckCls d (meshTerms N) = .ok d' ∧ UnitaryDevice N d') ∧
    ∀ U ∈ Matrix.unitaryGroup (Fin N) ℂ, ∀ wl, ∃ (δ : ℕ → ℕ → _) (ε : ℕ → _) (mz : ℕ → ℕ → Part) (wg : ℕ → Part) (d d' : Dev),
      (∀ m i, Becomes (mziFactory (r m i) (s m i)) [δ m i] (mz m i)) ∧ (∀ m, Becomes (wgFactory (q m)) [ε m] (wg m)) ∧
      reck N mz wg = .ok d ∧ termDev newName reckCls d (meshTerms N) = .ok d' ∧ Realizes N d' wl U := by
  refine ⟨fun δ ε => ?_, fun U hU wl => ?_⟩
  · obtain ⟨d, d', h1, -, h2, -, h3⟩ := C56_unitary N hN _ _ (fun m i => mzi_four (2 * Real.pi * r m i + added (δ m i) ['p', 'h', 'i'])
      (2 * Real.pi * s m i + added (δ m i) ['t', 'h', 'e', 't', 'a']) 2.34 3.40 1.55e-6 1e-5 0)
      (fun m => waveguide_two 1e-5 2.34 1.55e-6 3.40 (2 * Real.pi * q m + added (ε m) ['p', 'h', 'a', 's', 'e'])) newName
    exact ⟨_, _, d, d', fun m i => becomes_mzi _ _ _, fun m => becomes_wg _ _, h1, h2, h3⟩
  · obtain ⟨phi, theta, phase, d, d', h1, h2, h3⟩ := C76_reck N hN U hU wl (fun _ _ => 2.34) (fun _ _ => 3.40) (fun _ _ => 1.55e-6)
      (fun _ _ => 1e-5) (fun _ _ => 0) (fun _ => 2.34) (fun _ => 3.40) (fun _ => 1.55e-6) (fun _ => 1e-5) newName
    choose δ hδ using fun m i => reach_mzi (r m i) (s m i) (phi m i) (theta m i)
    choose ε hε using fun m => reach_wg (q m) (phase m)
    exact ⟨δ, ε, _, _, d, d', hδ, hε, h1, h2, h3⟩

/-- C125. The same for `ClementsNxN(N)`. In time, light takes the same number of steps to all outputs. -/
theorem C125_clements (N : ℕ) (hN : 2 ≤ N) (r s q : ℕ → ℕ → ℝ) (newName : Str) :
    (∀ δ ε : ℕ → ℕ → Steps, ∃ (mz wg : ℕ → ℕ → Part) (d d' : Dev),
      (∀ m i, Becomes (mziFactory (r m i) (s m i)) (δ m i) (mz m i)) ∧ (∀ m i, Becomes (wgFactory (q m i)) (ε m i) (wg m i)) ∧
      clementsOf N none mz wg = .ok d ∧ termDev newName clementsCls d (meshTerms N) = .ok d' ∧ UnitaryDevice N d' ∧
      ∃ U : ℝ → Matrix (Fin N) (Fin N) ℂ, ∀ wl v dt : ℝ, Realizes N d' wl (U wl) ∧
        (0 < dt → Arrives N d' wl v dt (fun _ _ => (N + 1) * roundSteps (3.40 * 1e-5 / v / dt)) (U wl))) ∧
    ∀ U ∈ Matrix.unitaryGroup (Fin N) ℂ, ∀ wl, ∃ (δ ε : ℕ → ℕ → _) (mz wg : ℕ → ℕ → Part) (d d' : Dev),
      (∀ m i, Becomes (mziFactory (r m i) (s m i)) [δ m i] (mz m i)) ∧ (∀ m i, Becomes (wgFactory (q m i)) [ε m i] (wg m i)) ∧
      clementsOf N none mz wg = .ok d ∧ termDev newName clementsCls d (meshTerms N) = .ok d' ∧ Realizes N d' wl U := by
  refine ⟨fun δ ε => ?_, fun U hU wl => ?_⟩
  · have hm := fun m i => mzi_four (2 * Real.pi * r m i + added (δ m i) ['p', 'h', 'i'])
      (2 * Real.pi * s m i + added (δ m i) ['t', 'h', 'e', 't', 'a']) 2.34 3.40 1.55e-6 1e-5 0
    have hw := fun m i => waveguide_two 1e-5 2.34 1.55e-6 3.40 (2 * Real.pi * q m i + added (ε m i) ['p', 'h', 'a', 's', 'e'])
    obtain ⟨d, d', h1, -, h2, -, h3⟩ := C57_unitary N N hN hN _ _ hm hw newName
    obtain ⟨e, e', k1, k2, U, k3, k4⟩ := C104_clements N N hN hN _ _ (fun m i => (hm m i).2) (fun m i => (hw m i).2) newName
    cases ok_inj (h1.symm.trans k1)
    cases ok_inj (h2.symm.trans k2)
    exact ⟨_, _, d, d', fun m i => becomes_mzi _ _ _, fun m i => becomes_wg _ _, h1, h2, h3, U, fun wl v dt => ⟨k3 wl, fun hdt =>
      k4 v dt _ hdt (fun _ _ => rfl) (fun _ _ => rfl) wl⟩⟩
  · obtain ⟨phi, theta, psi, d, d', h1, h2, h3⟩ := C87_clements N N hN le_rfl U hU wl (fun _ _ => 2.34) (fun _ _ => 3.40)
      (fun _ _ => 1.55e-6) (fun _ _ => 1e-5) (fun _ _ => 0) (fun _ _ => 2.34) (fun _ _ => 3.40) (fun _ _ => 1.55e-6) (fun _ _ => 1e-5)
      (fun _ _ => 0) newName
    choose δ hδ using fun m i => reach_mzi (r m i) (s m i) (phi m i) (theta m i)
    choose ε hε using fun m i => reach_wg (q m i) (if m = N / 2 ∧ i < N then psi i else 0)
    exact ⟨δ, ε, _, _, d, d', hδ, hε, h1, h2, h3⟩

/-- Not vacuous: a random `ClementsNxN(2)` is trained to exchange its two inputs at 1.55 micrometers. -/
example (r s q : ℕ → ℕ → ℝ) : ∃ (δ ε : ℕ → ℕ → _) (mz wg : ℕ → ℕ → Part) (d d' : Dev),
    (∀ m i, Becomes (mziFactory (r m i) (s m i)) [δ m i] (mz m i)) ∧ (∀ m i, Becomes (wgFactory (q m i)) [ε m i] (wg m i)) ∧
    clementsOf 2 none mz wg = .ok d ∧ termDev ['t'] clementsCls d (meshTerms 2) = .ok d' ∧
    Realizes 2 d' 1.55e-6 !![0, 1; 1, 0] := by
  refine (C125_clements 2 le_rfl r s q ['t']).2 _ ?_ _
  rw [Matrix.mem_unitaryGroup_iff]
  ext i j
  fin_cases i <;> fin_cases j <;> simp [Matrix.mul_apply, Fin.sum_univ_two, Matrix.star_apply]

end PT
