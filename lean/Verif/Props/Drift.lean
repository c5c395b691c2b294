import Verif.Spec.Drift
import Verif.Props.Balance
import Verif.Props.Gradient
import Mathlib.Analysis.InnerProductSpace.PiL2

/-!
# C116: errors of the computed steps
-/

namespace PT
open Spec Matrix

variable {W B : Type}

theorem power_nonneg' {ι : Type} [Fintype ι] (v : ι → ℂ) : 0 ≤ power v := Finset.sum_nonneg fun _ _ => Complex.normSq_nonneg _

theorem sqrt_power {ι : Type} [Fintype ι] (v : ι → ℂ) : √(power v) = ‖WithLp.toLp 2 v‖ := by
  rw [EuclideanSpace.norm_eq]
  congr 1
  unfold power
  refine Finset.sum_congr rfl fun i _ => ?_
  rw [Complex.normSq_eq_norm_sq]

theorem sqrt_power_add {ι : Type} [Fintype ι] (u v : ι → ℂ) : √(power (u + v)) ≤ √(power u) + √(power v) := by
  rw [sqrt_power, sqrt_power, sqrt_power, WithLp.toLp_add]
  exact norm_add_le _ _

theorem powerAt_all {ι : Type} [Fintype ι] (v : ι → ℂ) : powerAt (fun _ => true) v = power v := by simp [powerAt, power]

/-- Every delay line of a contraction forgets at least what it is told. -/
theorem drift_bound {ι : Type} [Fintype ι] (d : ι → ℕ) (hd : ∀ k, 0 < d k) (D e : ℕ → ι → ℂ) (ε : ℕ → ℝ) (T : ℕ)
    (he : ∀ t < T, √(power (e t)) ≤ ε t) (hD : ∀ t < T, power (D t - e t) ≤ power (delayed d D t)) :
    ∀ t < T, √(power (D t)) ≤ ∑ τ ∈ Finset.range (t + 1), ε τ := by
  have hstep : ∀ n, stored (fun _ => false) d D (n + 1) + power (delayed d D n) = stored (fun _ => false) d D n + power (D n) := by
    intro n
    have h1 := powerAt_delayed_eq (fun _ => false) d D n
    have h2 := powerAt_delayed_eq (fun _ => false) d D (n + 1)
    rw [Finset.sum_range_succ, Finset.sum_range_succ] at h2
    simp only [Bool.not_false, powerAt_all] at h1 h2
    linarith
  have hold : ∀ n, power (D n) ≤ stored (fun _ => false) d D (n + 1) := by
    intro n
    unfold power stored
    refine Finset.sum_le_sum fun i _ => ?_
    simp only [Bool.false_eq_true, if_false]
    refine le_trans (le_of_eq ?_) (Finset.single_le_sum (f := fun j => if j < n + 1 then Complex.normSq (D (n + 1 - 1 - j) i) else 0)
      (fun j _ => ?_) (Finset.mem_range.mpr (hd i)))
    · simp
    · split
      · exact Complex.normSq_nonneg _
      · exact le_rfl
  have hpos : ∀ n, 0 ≤ stored (fun _ => false) d D n := by
    intro n
    unfold stored
    refine Finset.sum_nonneg fun i _ => ?_
    simp only [Bool.false_eq_true, if_false]
    refine Finset.sum_nonneg fun j _ => ?_
    split
    · exact Complex.normSq_nonneg _
    · exact le_rfl
  have key : ∀ n < T, √(power (D n)) ≤ √(stored (fun _ => false) d D n) + ε n ∧
      √(stored (fun _ => false) d D (n + 1)) ≤ √(stored (fun _ => false) d D n) + ε n := by
    intro n hn
    have hR : power (delayed d D n) ≤ stored (fun _ => false) d D n := by linarith [hstep n, hold n]
    have hR' := Real.sqrt_le_sqrt hR
    have hDn : √(power (D n)) ≤ √(power (delayed d D n)) + ε n := by
      have h1 := sqrt_power_add (D n - e n) (e n)
      rw [sub_add_cancel] at h1
      linarith [Real.sqrt_le_sqrt (hD n hn), he n hn]
    refine ⟨hDn.trans (by linarith), ?_⟩
    have hε : 0 ≤ ε n := (Real.sqrt_nonneg _).trans (he n hn)
    rw [Real.sqrt_le_left (add_nonneg (Real.sqrt_nonneg _) hε)]
    have e1 := Real.sq_sqrt (hpos n)
    have e2 := Real.sq_sqrt (power_nonneg' (delayed d D n))
    have e3 := Real.sq_sqrt (power_nonneg' (D n))
    have e4 : √(power (D n)) ^ 2 ≤ (√(power (delayed d D n)) + ε n) ^ 2 := by
      have := Real.sqrt_nonneg (power (D n))
      gcongr
    nlinarith [hstep n, Real.sqrt_nonneg (power (delayed d D n))]
  have hsum : ∀ n ≤ T, √(stored (fun _ => false) d D n) ≤ ∑ τ ∈ Finset.range n, ε τ := by
    intro n
    induction n with
    | zero => intro _; simp [stored]
    | succ n ih =>
      intro hn
      rw [Finset.sum_range_succ]
      linarith [(key n (by omega)).2, ih (by omega)]
  intro t ht
  rw [Finset.sum_range_succ]
  linarith [(key t ht).1, hsum t ht.le]

theorem Splits.power {ι : Type} [Fintype ι] [DecidableEq ι] {mc ml : List ι} (h : Splits mc ml) (v : ι → ℂ) :
    Spec.power v = Spec.power (v ∘ mc.get) + Spec.power (v ∘ ml.get) := h.sum fun i => Complex.normSq (v i)

/-- The reduced connection matrix of a passive network never increases power. -/
theorem redC_contracts {ι : Type} [Fintype ι] [DecidableEq ι] {mc ml : List ι} (h : Splits mc ml) {C : Matrix ι ι ℝ} (hC : Paired C)
    (S : Matrix ι ι ℂ) (hS : Contracts S) (hdec : Decoupled S mc ml) (hP : (1 - pick (cx C 0) ml ml * pick S ml ml).det ≠ 0)
    (x : Fin mc.length → ℂ) : power (redC (cx C 0) S mc ml *ᵥ x) ≤ power x := by
  obtain ⟨a, b, h1, h2, h3⟩ := h.extend (cx C 0) S hdec hP 0 (h.join x 0) (by funext k; exact h.join_ml x 0 k)
  have hx : h.join x 0 ∘ mc.get = x := by funext k; exact h.join_mc x 0 k
  rw [Matrix.mulVec_zero, zero_add, hx] at h3
  have hb : power b = power a := by rw [h1, power_paired hC]
  have hmc : b ∘ mc.get = x := by
    rw [h2]
    have : (S *ᵥ h.join 0 (a ∘ ml.get) + h.join x 0) ∘ mc.get = (S *ᵥ h.join 0 (a ∘ ml.get)) ∘ mc.get + h.join x 0 ∘ mc.get := rfl
    rw [this, hx, h.mulVec, hdec.1, Matrix.zero_mulVec, add_zero]
    have : h.join 0 (a ∘ ml.get) ∘ mc.get = 0 := by funext k; exact h.join_mc _ _ k
    rw [this, Matrix.mulVec_zero, zero_add]
  have hml : power (b ∘ ml.get) ≤ power (a ∘ ml.get) := by
    have e : b ∘ ml.get = (S *ᵥ h.join 0 (a ∘ ml.get)) ∘ ml.get := by
      rw [h2]
      funext k
      show _ + h.join x 0 (ml.get k) = _
      rw [h.join_ml, Pi.zero_apply, add_zero]
      rfl
    have h4 := hS (h.join 0 (a ∘ ml.get))
    rw [h.power (S *ᵥ _), h.power (h.join 0 _), ← e] at h4
    have e5 : h.join 0 (a ∘ ml.get) ∘ mc.get = 0 := by funext k; exact h.join_mc _ _ k
    have e6 : h.join 0 (a ∘ ml.get) ∘ ml.get = a ∘ ml.get := by funext k; exact h.join_ml _ _ k
    rw [e5, e6] at h4
    have e7 : power (0 : Fin mc.length → ℂ) = 0 := by simp [power]
    rw [e7] at h4
    linarith [power_nonneg' ((S *ᵥ h.join 0 (a ∘ ml.get)) ∘ mc.get)]
  rw [← h3]
  have h5 := h.power a
  have h6 := h.power b
  rw [hmc] at h6
  linarith

theorem pick_contracts {ι : Type} [Fintype ι] [DecidableEq ι] {mc ml : List ι} (h : Splits mc ml) (S : Matrix ι ι ℂ) (hS : Contracts S)
    (x : Fin mc.length → ℂ) : power (pick S mc mc *ᵥ x) ≤ power x := by
  have h4 := hS (h.join x 0)
  have e5 : h.join x 0 ∘ mc.get = x := by funext k; exact h.join_mc _ _ k
  have e6 : h.join x 0 ∘ ml.get = 0 := by funext k; exact h.join_ml _ _ k
  have e7 : power (0 : Fin ml.length → ℂ) = 0 := by simp [power]
  rw [h.power (S *ᵥ _), h.power (h.join x 0), h.mulVec, e5, e6, Matrix.mulVec_zero, add_zero, e7, add_zero] at h4
  linarith [power_nonneg' ((S *ᵥ h.join x 0) ∘ ml.get)]

theorem slots_read (r : Reduced W) (ys : List (Fields r.m W B)) (len j : ℕ) (hlen : ∀ k, r.tIdx k < len) (hj : j ≤ ys.length)
    (w : W) (b : B) : (readBuffer r (slots len ys j)).val w b = delayed (fun k => r.tIdx k + 1) (traj ys w b) j := by
  funext k
  rw [readBuffer_val]
  have e : (slots len ys j)[r.tIdx k]? = some (if r.tIdx k < j then ys.getD (j - 1 - r.tIdx k) ⟨fun _ => 0, fun _ => 0⟩
      else ⟨fun _ => 0, fun _ => 0⟩) := by
    unfold slots
    rw [List.getElem?_map, List.getElem?_range (hlen k)]
    rfl
  rw [e]
  simp only [Option.map_some, Option.getD_some, delayed, traj]
  by_cases h : r.tIdx k < j
  · rw [if_pos h, if_pos (by omega), show j - (r.tIdx k + 1) = j - 1 - r.tIdx k by omega,
      List.getElem?_eq_getElem (by omega)]
    simp only [List.getD, List.getElem?_eq_getElem (show j - 1 - r.tIdx k < ys.length by omega), Option.getD_some, Option.map_some]
  · rw [if_neg h, if_neg (by omega)]
    rfl

theorem apart_val {m : ℕ} (x y : Fields m W B) (w : W) (b : B) : apart x y w b = √(power (x.val w b - y.val w b)) := by
  unfold apart power
  congr 1
  refine Finset.sum_congr rfl fun k _ => ?_
  rw [Complex.normSq_apply]
  simp only [Pi.sub_apply, Complex.sub_re, Complex.sub_im, Fields.val]
  ring

theorem mismatch_detect {m : ℕ} (n : ℕ) (x y : Fields m W B) (w : W) (b : B) :
    mismatch (detectNodes n x w b) (detectNodes n y w b) ≤ power (x.val w b - y.val w b) := by
  unfold mismatch detectNodes
  rw [← List.drop_zipWith, ]
  set l := List.zipWith (fun x y : ℝ × ℝ => (x.1 - y.1) ^ 2 + (x.2 - y.2) ^ 2) (List.ofFn fun k : Fin m => (x.re w k b, x.im w k b))
    (List.ofFn fun k : Fin m => (y.re w k b, y.im w k b)) with hl
  have hl' : l = List.ofFn fun k : Fin m => Complex.normSq ((x.val w b - y.val w b) k) := by
    apply List.ext_getElem
    · simp [hl]
    · intro i h1 h2
      simp only [hl, List.getElem_zipWith, List.getElem_ofFn]
      rw [Complex.normSq_apply]
      simp only [Pi.sub_apply, Complex.sub_re, Complex.sub_im, Fields.val]
      ring
  have hs : l.sum = power (x.val w b - y.val w b) := by rw [hl', List.sum_ofFn]; rfl
  rw [← hs]
  refine List.Sublist.sum_le_sum (List.drop_sublist _ _) fun a ha => ?_
  rw [hl', List.mem_ofFn] at ha
  obtain ⟨k, rfl⟩ := ha
  exact Complex.normSq_nonneg _

theorem drift_cancel {m : ℕ} {M N : Matrix (Fin m) (Fin m) ℂ} {y x u v s D : Fin m → ℂ} (hx : x = M *ᵥ (N *ᵥ v + s))
    (hD : D = u - v) : y - x - M *ᵥ (N *ᵥ D) = y - M *ᵥ (N *ᵥ u + s) := by
  rw [hx, hD, Matrix.mulVec_sub, Matrix.mulVec_sub, Matrix.mulVec_add, Matrix.mulVec_add]
  abel

/-- C116 for networks given by their matrices. -/
theorem C116_network (p : Plant W) (env : SimEnv) (hx : p.Exclusive) (hact : ∀ i, p.act i = false) (hd : p.numDet ≠ 0)
    (hdt : env.freqdomain = true ∨ ∃ dt, env.dt = some dt ∧ 0 < dt) (hC : Paired p.C) (hS : ∀ w, Contracts (p.Sx w))
    (hmix : ∀ w, p.NoMix env w) (r : Reduced W) (hr : initNet p env = .ok (some r)) (cs : List (Actor W B))
    (src : ℕ → ℕ → W → B → ℝ × ℝ) (len : ℕ) (hlen : bufferLen r env = .ok len) (ε : ℕ → ℝ) (ys : List (Fields r.m W B))
    (hys : Computes r cs len (fun i => padSource r.m r.numSrc (src i)) env.t ε ys) :
    ∃ out, forwardReduced r env cs src = .ok out ∧ out.length = env.t.length ∧
      ∀ t (h : t < out.length) (h' : t < ys.length) w b,
        mismatch (detectNodes r.numDet ys[t] w b) (out[t] w b) ≤ (∑ τ ∈ Finset.range (t + 1), ε τ) ^ 2 := by
  obtain ⟨-, C, hC', rfl⟩ := initNet_some hr
  obtain ⟨len', hlen', hpos, hidx⟩ := bufferLen_ok p env C hdt
  obtain rfl : len' = len := by rw [hlen'] at hlen; cases hlen; rfl
  set xs := simulate (reducedOf p env C) cs
    (fun i => padSource (p.mcOrder env).length p.numSrc (src i)) env.t 0
    (emptyBuffer len' (p.mcOrder env).length W B) with hxs
  have hxl : xs.length = env.t.length := by rw [hxs]; exact simulate_length _ _ _ _ _ _
  refine ⟨_, forward_eq p env C hd cs src len' hlen', by rw [List.length_map]; exact simulate_length _ _ _ _ _ _, ?_⟩
  intro t ht hty w b
  have hsp := plant_splits p env hx
  have htt : t < env.t.length := by rw [← hys.length]; exact hty
  have hM : ∀ x, power (cx ((reducedOf p env C).rC w) ((reducedOf p env C).iC w) *ᵥ
      (cx ((reducedOf p env C).rS w) ((reducedOf p env C).iS w) *ᵥ x)) ≤ power x := by
    intro x
    have e1 : cx ((reducedOf p env C).rC w) ((reducedOf p env C).iC w) =
        redC p.Cx (p.Sx w) (p.mcOrder env) (p.mlPorts env) := (reduced_redC p env C w hC').2
    have e4 : cx ((reducedOf p env C).rS w) ((reducedOf p env C).iS w) =
        pick (p.Sx w) (p.mcOrder env) (p.mcOrder env) := (pick_cx _ _ _ _).symm
    rw [e1, e4]
    exact (redC_contracts hsp hC (p.Sx w) (hS w) (noMix_decoupled p env w (hmix w)) (reduced_redC p env C w hC').1 _).trans
      (pick_contracts hsp (p.Sx w) (hS w) x)
  have hrun : ∀ j < env.t.length, √(power ((traj ys w b j - traj xs w b j) -
      cx ((reducedOf p env C).rC w) ((reducedOf p env C).iC w) *ᵥ (cx ((reducedOf p env C).rS w) ((reducedOf p env C).iS w) *ᵥ
        delayed (fun k => (reducedOf p env C).tIdx k + 1) (fun t => traj ys w b t - traj xs w b t) j))) ≤ ε j := by
    intro j hj
    have hjy : j < ys.length := by rw [hys.length]; exact hj
    have h1 := hys.near j hj hjy w b
    rw [apart_val, stepField_passive _ (act_none p hact), slots_read _ _ _ _ hidx hjy.le] at h1
    have h2 := traj_step (reducedOf p env C) (act_none p hact) cs _ len' hpos hidx env.t xs hxs j hj w b
    have h3 : ys[j].val w b = traj ys w b j := by
      funext k
      rw [traj, List.getElem?_eq_getElem hjy]
      rfl
    rw [h3] at h1
    refine le_trans (le_of_eq ?_) h1
    congr 2
    have h4 : delayed (fun k => (reducedOf p env C).tIdx k + 1) (fun t => traj ys w b t - traj xs w b t) j =
        delayed (fun k => (reducedOf p env C).tIdx k + 1) (traj ys w b) j -
        delayed (fun k => (reducedOf p env C).tIdx k + 1) (traj xs w b) j := by
      funext k
      simp only [delayed, Pi.sub_apply]
      split <;> simp
    exact drift_cancel h2 h4
  have hb := drift_bound (fun k => (reducedOf p env C).tIdx k + 1) (fun k => Nat.succ_pos _) (fun t => traj ys w b t - traj xs w b t) _ ε
    env.t.length hrun (fun j _ => by simp only [sub_sub_cancel]; exact hM _) t htt
  have hε : 0 ≤ ∑ τ ∈ Finset.range (t + 1), ε τ := (Real.sqrt_nonneg _).trans hb
  rw [Real.sqrt_le_left hε] at hb
  refine le_trans ?_ hb
  have htx : t < xs.length := by omega
  have e1 : traj ys w b t = ys[t].val w b := by
    funext k
    rw [traj, List.getElem?_eq_getElem hty]
    rfl
  have e2 : traj xs w b t = xs[t].val w b := by
    funext k
    rw [traj, List.getElem?_eq_getElem htx]
    rfl
  rw [e1, e2]
  refine le_trans (le_of_eq ?_) (mismatch_detect p.numDet ys[t] xs[t] w b)
  rw [List.getElem_map]
  rfl

/-- C116: in circuits of passive components, the errors of the steps of an inexact simulation are never amplified: what the detectors
see is off by no more than the sum of the errors of the steps so far. -/
theorem C116_drift (d : Dev) (hM : MadeOf (fun p => ∀ wl, Contracts (scattering p wl)) d) (ht : d.comp.terminated = true) (v : ℝ)
    (wl : W → ℝ) (env : SimEnv) (hdt : env.freqdomain = true ∨ ∃ dt, env.dt = some dt ∧ 0 < dt)
    (hd : portsWith (d.plant v wl).det ≠ []) (r : Reduced W) (hr : initNet (d.plant v wl) env = .ok (some r)) (cs : List (Actor W B))
    (src : ℕ → ℕ → W → B → ℝ × ℝ) (len : ℕ) (hlen : bufferLen r env = .ok len) (ε : ℕ → ℝ) (ys : List (Fields r.m W B))
    (hys : Computes r cs len (fun i => padSource r.m r.numSrc (src i)) env.t ε ys) :
    ∃ out, forwardReduced r env cs src = .ok out ∧ out.length = env.t.length ∧
      ∀ t (h : t < out.length) (h' : t < ys.length) w b,
        mismatch (detectNodes r.numDet ys[t] w b) (out[t] w b) ≤ (∑ τ ∈ Finset.range (t + 1), ε τ) ^ 2 := by
  obtain ⟨hc, L, hP, hL⟩ := madeOf_flat hM
  exact C116_network _ env (plant_exclusive hL v wl) (plant_act hL v wl)
    (by rw [numDet_eq, Ne, List.length_eq_zero_iff]; exact hd) hdt (plant_paired hc ht v wl)
    (fun w => plant_contracts hL v wl (fun q hq => hP q hq) w) (fun w => flat_noMix hL v wl env w) r hr cs src len hlen ε ys hys

/-- The fields of a simulation in which every step is rounded. -/
noncomputable def roundedRun (r : Reduced W) (cs : List (Actor W B)) (len : ℕ) (src : ℕ → Fields r.m W B)
    (rnd : Fields r.m W B → Fields r.m W B) : List ℝ → List (Fields r.m W B) → List (Fields r.m W B)
  | [], ys => ys
  | t :: ts, ys => roundedRun r cs len src rnd ts (ys ++ [rnd (stepField r cs t (src ys.length) (slots len ys ys.length))])

theorem slots_append {m : ℕ} (len : ℕ) (ys zs : List (Fields m W B)) (j : ℕ) (h : j ≤ ys.length) :
    slots len (ys ++ zs) j = slots len ys j := by
  unfold slots
  refine List.map_congr_left fun q _ => ?_
  split
  · rw [List.getD_eq_getElem?_getD, List.getElem?_append_left (by omega), List.getD_eq_getElem?_getD]
  · rfl

theorem roundedRun_spec (r : Reduced W) (cs : List (Actor W B)) (len : ℕ) (src : ℕ → Fields r.m W B)
    (rnd : Fields r.m W B → Fields r.m W B) (ε : ℝ) (hrnd : ∀ x w b, apart (rnd x) x w b ≤ ε) (ts : List ℝ) :
    ∀ (done : List ℝ) (ys : List (Fields r.m W B)), Computes r cs len src done (fun _ => ε) ys →
      Computes r cs len src (done ++ ts) (fun _ => ε) (roundedRun r cs len src rnd ts ys) := by
  induction ts with
  | nil => intro done ys h; rw [List.append_nil]; exact h
  | cons t ts ih =>
    intro done ys h
    have := ih (done ++ [t]) (ys ++ [rnd (stepField r cs t (src ys.length) (slots len ys ys.length))]) ⟨by simp [h.length], ?_⟩
    · rwa [List.append_assoc] at this
    · intro j hj hy w b
      rw [List.length_append, List.length_singleton] at hy
      rw [slots_append _ _ _ _ (by omega)]
      by_cases hlt : j < ys.length
      · have h1 : j < done.length := by rw [← h.length]; exact hlt
        rw [List.getElem_append_left hlt, List.getElem_append_left h1]
        exact h.near j h1 hlt w b
      · obtain rfl : j = ys.length := by omega
        have h1 : (done ++ [t])[ys.length] = t := by
          rw [List.getElem_append_right (by rw [h.length])]
          simp
        rw [h1, List.getElem_append_right le_rfl]
        simpa using hrnd _ w b

/-- Whatever the rounding, the line is simulated to within the number of steps times the error of one step. -/
example (v : ℝ) (wl : W → ℝ) (ts : List ℝ) (src : ℕ → ℕ → W → B → ℝ × ℝ) (ε : ℝ) (rnd : ∀ m, Fields m W B → Fields m W B)
    (hrnd : ∀ m x w b, apart (rnd m x) x w b ≤ ε) : ∃ (d : Dev) (r : Reduced W) (len : ℕ) (out : List (W → B → List (ℝ × ℝ)))
      (ys : List (Fields r.m W B)), d.comp.n = 4 ∧ initNet (d.plant v wl) ⟨some 1e-14, false, ts⟩ = .ok (some r) ∧
      ys = roundedRun r [] len (fun i => padSource r.m r.numSrc (src i)) (rnd r.m) ts [] ∧ ys.length = ts.length ∧
      forwardReduced r ⟨some 1e-14, false, ts⟩ [] src = .ok out ∧ out.length = ts.length ∧
      ∀ t (h : t < out.length) (h' : t < ys.length) w b, mismatch (detectNodes r.numDet ys[t] w b) (out[t] w b) ≤ ((t + 1) * ε) ^ 2 := by
  obtain ⟨d, hM, hn, -, hdt, ht, hi⟩ := exLine_init (W := W)
  obtain ⟨r, hr⟩ := hi v wl ⟨some 1e-14, false, ts⟩
  have hb : ∃ len, bufferLen r ⟨some 1e-14, false, ts⟩ = .ok len := by
    obtain ⟨-, C, hC', rfl⟩ := initNet_some hr
    obtain ⟨len, h, -⟩ := bufferLen_ok (d.plant v wl) ⟨some 1e-14, false, ts⟩ C (.inr ⟨1e-14, rfl, by norm_num⟩)
    exact ⟨len, h⟩
  obtain ⟨len, hlen⟩ := hb
  have hy := roundedRun_spec r [] len (fun i => padSource r.m r.numSrc (src i)) (rnd r.m) ε (hrnd r.m) ts [] []
    ⟨rfl, fun j hj => absurd hj (by simp)⟩
  rw [List.nil_append] at hy
  obtain ⟨out, h1, h2, h3⟩ := C116_drift d hM ht v wl ⟨some 1e-14, false, ts⟩ (.inr ⟨1e-14, rfl, by norm_num⟩) (exLine_det hn hdt v wl) r hr
    [] src len hlen (fun _ => ε) _ hy
  refine ⟨d, r, len, out, _, hn, hr, rfl, hy.length, h1, h2, fun t h h' w b => ?_⟩
  have := h3 t h h' w b
  rw [Finset.sum_const, Finset.card_range, nsmul_eq_mul] at this
  push_cast at this
  exact this

end PT
