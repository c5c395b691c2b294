import Mathlib.RingTheory.PowerSeries.Basic
import Verif.Proof.ClementsWaves
import Verif.Proof.MeshWaves
import Verif.Props.Circuits

/-! Proof support: waves in the time domain as power series, and what they do in meshes. -/

namespace PT
open Spec Matrix

open PowerSeries (C X coeff) in
/-- Waves in the time domain: the coefficients of a power series are the amplitudes in the time steps. -/
noncomputable def Look.moving (wl v dt : ℝ) : Look (PowerSeries ℂ) :=
  ⟨wl, v, fun c δ => C c * X ^ roundSteps (δ / dt), fun _ => by rw [map_zero, zero_mul]⟩

theorem coeff_moving (c : ℂ) (n : ℕ) (a : PowerSeries ℂ) (t : ℕ) :
    PowerSeries.coeff t (PowerSeries.C c * PowerSeries.X ^ n * a) = c * if n ≤ t then PowerSeries.coeff (t - n) a else 0 := by
  rw [mul_assoc, PowerSeries.coeff_C_mul, PowerSeries.coeff_X_pow_mul']

/-- Waves in a terminated mesh in the time domain. -/
theorem term_moving {P : Part → Prop} (hblank : ∀ p, P p → p ≠ .source ∧ p ≠ .detector) {N : ℕ} {d d' : Dev}
    (hmd : MadeOf P d) {nw : Str} (hs : nw.head? ≠ some 's') (hdd : nw.head? ≠ some 'd')
    (h : Made (OrEnd P) (termMods nw d N) (termLinks nw (termNames N)) [] d') (ht : d'.comp.terminated = true)
    {wl₀ v dt : ℝ} {s y : ℕ → PowerSeries ℂ} (hc : Carries d (.moving wl₀ v dt) (inSide N s) (outSide N y))
    {W : Type} (wl : W → ℝ) (w : W) (hw : wl w = wl₀) (T : ℕ) :
    ∃ a b, Solves (cx (d'.plant v wl).C 0) (cx ((d'.plant v wl).rS w) ((d'.plant v wl).iS w)) (circuitDelay d' v wl dt) T
        (fun t => emitted (d'.plant v wl).src fun k => PowerSeries.coeff t (s k)) a b ∧
      ∀ t, (portsWith (d'.plant v wl).det).map (a t) = (List.range N).map fun k => PowerSeries.coeff t (y k) := by
  subst hw
  obtain ⟨a, b, h1, h2, h3⟩ := term_waves hblank hmd hs hdd h ht hc v wl
  obtain ⟨-, L, -, hL⟩ := madeOf_flat h.made
  refine ⟨fun t i => PowerSeries.coeff t (a i), fun t i => PowerSeries.coeff t (b i), ⟨?_, ?_⟩, ?_⟩
  · intro t _
    exact mesh_linked h.made.clean ht v wl fun i j hij => by rw [h1 i j hij]
  · intro t _
    funext i
    rw [h2 i, map_add, map_sum]
    refine congrArg₂ (· + ·) ?_ ?_
    · refine Finset.sum_congr rfl fun j _ => ?_
      refine (coeff_moving _ _ _ _).trans ?_
      by_cases hz : cx ((d'.plant v wl).rS w) ((d'.plant v wl).iS w) i j = 0
      · have hz' : d'.entry (wl w) i j = 0 := hz
        show d'.entry (wl w) i j * _ = cx ((d'.plant v wl).rS w) ((d'.plant v wl).iS w) i j * _
        rw [hz, hz', zero_mul, zero_mul]
      · obtain ⟨-, -, s2, -, d2⟩ := plant_same hL v wl w i j hz
        have hd : circuitDelay d' v wl dt j = roundSteps (d'.delay v j / dt) := by
          unfold circuitDelay
          rw [s2, d2]
          rfl
        show _ = cx ((d'.plant v wl).rS w) ((d'.plant v wl).iS w) i j * delayed _ _ _ _
        unfold delayed
        rw [hd]
        rfl
    · unfold emitted
      split
      · rfl
      · exact map_zero _
  · intro t
    have := congrArg (List.map (PowerSeries.coeff t)) h3
    rw [List.map_map, List.map_map] at this
    exact this

/-! ### Rows and layers of components with the same delay -/

/-- A four-port with all transmissions multiplied by a factor. -/
def Cell.scale {R : Type} [CommRing R] (z : R) (c : Cell R) : Cell R := ⟨c.α * z, c.β * z, c.γ * z, c.δ * z⟩

/-- A four-port whose transmissions are numbers. -/
noncomputable def Cell.const (c : Cell ℂ) : Cell (PowerSeries ℂ) :=
  ⟨PowerSeries.C c.α, PowerSeries.C c.β, PowerSeries.C c.γ, PowerSeries.C c.δ⟩

section
variable {R : Type} [CommRing R]

theorem rowOut_scale (z x : R) (q n : ℕ) (c : ℕ → Cell R) (w : R) (a : ℕ → R) (k : ℕ) :
    rowOut q n (fun j => (c j).scale z) (w * z) (fun j => x * a j) k = x * z * rowOut q n c w a k := by
  unfold rowOut Cell.scale
  split
  · split <;> ring
  · split <;> ring

/-- In every row the waves are delayed once more. -/
theorem rowState_scale (z : R) (n : ℕ) (c : ℕ → ℕ → Cell R) (w : ℕ → R) (a : ℕ → R) : ∀ L k,
    rowState n (fun l j => (c l j).scale z) (fun l => w l * z) a L k = z ^ L * rowState n c w a L k
  | 0, k => by simp [rowState]
  | L + 1, k => by
    have e : rowState n (fun l j => (c l j).scale z) (fun l => w l * z) a L = fun j => z ^ L * rowState n c w a L j :=
      funext fun j => rowState_scale z n c w a L j
    rw [rowState, e, rowOut_scale, rowState, pow_succ]

theorem layTop_scale (z : R) : ∀ (n : ℕ) (c : ℕ → Cell R) (w : R) (a : ℕ → R),
    layTop n (fun j => (c j).scale z) (w * z) a = z * layTop n c w fun i => z ^ i * a i
  | 0, c, w, a => by simp only [layTop, pow_zero]; ring
  | n + 1, c, w, a => by
    simp only [layTop, Cell.scale, pow_zero]
    have h := layTop_scale z n (fun k => c (k + 1)) w fun k => a (k + 1)
    simp only [Cell.scale] at h
    have e : (fun k => z ^ (k + 1) * a (k + 1)) = fun k => z * (z ^ k * a (k + 1)) := by
      funext k
      ring
    rw [h, e, layTop_smul]
    ring

theorem layX_scale (z : R) (n : ℕ) (c : ℕ → Cell R) (w : R) (a : ℕ → R) (k : ℕ) :
    z ^ k * layX n (fun j => (c j).scale z) (w * z) a k = z * layX n c w (fun i => z ^ i * a i) k := by
  unfold layX
  rw [layTop_scale]
  have e : (fun i => z ^ (k + i) * a (k + i)) = fun i => z ^ k * (z ^ i * a (k + i)) := by
    funext i
    ring
  rw [e, layTop_smul]
  ring

theorem layY_scale_zero (z : R) (n : ℕ) (c : ℕ → Cell R) (w : R) (a : ℕ → R) :
    layY n (fun j => (c j).scale z) (w * z) a 0 = z * layY n c w (fun i => z ^ i * a i) 0 := by
  have := layX_scale z n c w a 0
  rw [pow_zero, one_mul] at this
  exact this

theorem layY_scale (z : R) (n : ℕ) (c : ℕ → Cell R) (w : R) (a : ℕ → R) (k : ℕ) :
    z ^ k * layY n (fun j => (c j).scale z) (w * z) a (k + 1) = z * layY n c w (fun i => z ^ i * a i) (k + 1) := by
  have h := layX_scale z n c w a (k + 1)
  simp only [layY, Cell.scale] at h ⊢
  linear_combination (c k).δ * h

theorem reckState_scale (z : R) (n : ℕ) (c : ℕ → ℕ → Cell R) (w : ℕ → R) (a : ℕ → R) : ∀ m k,
    z ^ k * reckState n (fun m j => (c m j).scale z) (fun m => w m * z) a m k =
      z ^ m * reckState n c w (fun i => z ^ i * a i) m k
  | 0, k => by simp [reckState]
  | m + 1, k => by
    rw [reckState_step, reckState_step, layY_scale]
    have e : (fun i => z ^ i * reckState n (fun m j => (c m j).scale z) (fun m => w m * z) a m i) =
        fun i => z ^ m * reckState n c w (fun i => z ^ i * a i) m i := funext fun i => reckState_scale z n c w a m i
    rw [e, layY_smul, pow_succ]
    ring

/-- From input `i` to output `m` of a triangle the waves are delayed `i + m + 1` times. -/
theorem reckRes_scale (z : R) (n : ℕ) (c : ℕ → ℕ → Cell R) (w : ℕ → R) (a : ℕ → R) (m : ℕ) :
    reckRes n (fun m j => (c m j).scale z) (fun m => w m * z) a m =
      z ^ (m + 1) * reckRes n c w (fun i => z ^ i * a i) m := by
  unfold reckRes
  rw [layY_scale_zero]
  have e : (fun i => z ^ i * reckState n (fun m j => (c m j).scale z) (fun m => w m * z) a m i) =
      fun i => z ^ m * reckState n c w (fun i => z ^ i * a i) m i := funext fun i => reckState_scale z n c w a m i
  rw [e, layY_smul, pow_succ]
  ring

theorem layY_sum (n : ℕ) (c : ℕ → Cell R) (w : R) (a : ℕ → R) (M : ℕ → ℕ → R) (s : Finset ℕ) (k : ℕ) :
    layY n c w (fun i => ∑ j ∈ s, M i j * a j) k = ∑ j ∈ s, layY n c w (fun i => M i j) k * a j := by
  classical
  induction s using Finset.induction_on with
  | empty =>
    simp only [Finset.sum_empty]
    have := layY_smul (0 : R) n c w (fun _ => 0) k
    simpa using this
  | insert j s hj ih =>
    simp only [Finset.sum_insert hj]
    rw [layY_add n c w (fun i => M i j * a j) (fun i => ∑ j ∈ s, M i j * a j) k, ih]
    congr 1
    have : (fun i => M i j * a j) = fun i => a j * M i j := funext fun i => mul_comm _ _
    rw [this, layY_smul, mul_comm]

theorem reckState_sum (n : ℕ) (c : ℕ → ℕ → Cell R) (w : ℕ → R) (a : ℕ → R) : ∀ m ≤ n, ∀ k ≤ n - m,
    reckState n c w a m k = ∑ j ∈ Finset.range (n + 1), reckState n c w (fun i => if i = j then 1 else 0) m k * a j
  | 0, _, k, hk => by
    simp only [reckState, ite_mul, one_mul, zero_mul]
    rw [Finset.sum_ite_eq, if_pos (Finset.mem_range.mpr (by omega))]
  | m + 1, hm, k, hk => by
    rw [reckState_step, layY_congr (n := n - m) (c m) (w m) (fun k hk => reckState_sum n c w a m (by omega) k hk) (k + 1)
      (by omega), layY_sum]
    exact Finset.sum_congr rfl fun j _ => by rw [reckState_step]

theorem reckRes_sum (n : ℕ) (c : ℕ → ℕ → Cell R) (w : ℕ → R) (a : ℕ → R) (m : ℕ) (hm : m ≤ n) :
    reckRes n c w a m = ∑ j ∈ Finset.range (n + 1), reckRes n c w (fun i => if i = j then 1 else 0) m * a j := by
  unfold reckRes
  rw [layY_congr (n := n - m) (c m) (w m) (fun k hk => reckState_sum n c w a m hm k hk) 0 (by omega), layY_sum]

end

/-! ### Every time step by itself -/

open PowerSeries (C X coeff)

theorem rowOut_coeff (q n : ℕ) (c : ℕ → Cell ℂ) (w : ℂ) (a : ℕ → PowerSeries ℂ) (t k : ℕ) :
    coeff t (rowOut q n (fun j => (c j).const) (C w) a k) = rowOut q n c w (fun j => coeff t (a j)) k := by
  unfold rowOut Cell.const
  split
  · split
    · simp only [map_add, PowerSeries.coeff_C_mul]
    · simp only [PowerSeries.coeff_C_mul]
  · split
    · simp only [PowerSeries.coeff_C_mul]
    · simp only [map_add, PowerSeries.coeff_C_mul]

theorem rowState_coeff (n : ℕ) (c : ℕ → ℕ → Cell ℂ) (w : ℕ → ℂ) (a : ℕ → PowerSeries ℂ) (t : ℕ) : ∀ L k,
    coeff t (rowState n (fun l j => (c l j).const) (fun l => C (w l)) a L k) = rowState n c w (fun j => coeff t (a j)) L k
  | 0, _ => rfl
  | L + 1, k => by
    rw [rowState, rowOut_coeff, rowState]
    congr 1
    funext j
    exact rowState_coeff n c w a t L j

theorem layTop_coeff (t : ℕ) : ∀ (n : ℕ) (c : ℕ → Cell ℂ) (w : ℂ) (a : ℕ → PowerSeries ℂ),
    coeff t (layTop n (fun j => (c j).const) (C w) a) = layTop n c w fun j => coeff t (a j)
  | 0, c, w, a => by simp only [layTop, PowerSeries.coeff_C_mul]
  | n + 1, c, w, a => by
    simp only [layTop, map_add]
    rw [← layTop_coeff t n (fun k => c (k + 1)) w fun k => a (k + 1)]
    simp only [Cell.const, PowerSeries.coeff_C_mul]

theorem layY_coeff (t n : ℕ) (c : ℕ → Cell ℂ) (w : ℂ) (a : ℕ → PowerSeries ℂ) : ∀ k,
    coeff t (layY n (fun j => (c j).const) (C w) a k) = layY n c w (fun j => coeff t (a j)) k
  | 0 => layTop_coeff t _ _ _ _
  | k + 1 => by
    simp only [layY, layX, map_add]
    rw [← layTop_coeff t _ (fun i => c (k + 1 + i)) w fun i => a (k + 1 + i)]
    simp only [Cell.const, PowerSeries.coeff_C_mul]

theorem reckState_coeff (t n : ℕ) (c : ℕ → ℕ → Cell ℂ) (w : ℕ → ℂ) (a : ℕ → PowerSeries ℂ) : ∀ m k,
    coeff t (reckState n (fun m j => (c m j).const) (fun m => C (w m)) a m k) =
      reckState n c w (fun j => coeff t (a j)) m k
  | 0, _ => rfl
  | m + 1, k => by
    rw [reckState_step, reckState_step, layY_coeff]
    congr 1
    funext j
    exact reckState_coeff t n c w a m j

theorem reckRes_coeff (t n : ℕ) (c : ℕ → ℕ → Cell ℂ) (w : ℕ → ℂ) (a : ℕ → PowerSeries ℂ) (m : ℕ) :
    coeff t (reckRes n (fun m j => (c m j).const) (fun m => C (w m)) a m) = reckRes n c w (fun j => coeff t (a j)) m := by
  unfold reckRes
  rw [layY_coeff]
  congr 1
  funext j
  exact reckState_coeff t n c w a m j

/-- A four-port in the time domain. -/
theorem cell_moving {p : Part} (hp : FourPort p) (wl v dt : ℝ) {n : ℕ} (hn : roundSteps (p.delay v / dt) = n) :
    cellOf p (.moving wl v dt) = ((cellOf p (.steady wl 1)).const).scale (X ^ n) := by
  have hd : ∀ j < 4, p.dev.delay v j = p.delay v := fun j hj => if_pos (by rw [hp.1]; exact hj)
  have h : ∀ i, ∀ j < 4, p.dev.gain (.moving wl v dt) i j = C (p.dev.entry wl i j) * X ^ n := by
    intro i j hj
    show C (p.dev.entry wl i j) * X ^ roundSteps (p.dev.delay v j / dt) = _
    rw [hd j hj, hn]
  unfold cellOf Cell.scale Cell.const
  rw [h 1 0 (by omega), h 1 3 (by omega), h 2 0 (by omega), h 2 3 (by omega)]
  rfl

/-- A two-port in the time domain. -/
theorem two_moving {p : Part} (hp : TwoPort p) (wl v dt : ℝ) {n : ℕ} (hn : roundSteps (p.delay v / dt) = n) :
    p.dev.gain (.moving wl v dt) 1 0 = C (p.dev.gain (.steady wl 1) 1 0) * X ^ n := by
  have hd : p.dev.delay v 0 = p.delay v := if_pos (by rw [hp.1]; omega)
  show C (p.dev.entry wl 1 0) * X ^ roundSteps (p.dev.delay v 0 / dt) = _
  rw [hd, hn]
  rfl

end PT
