import Verif.Spec.Balance
import Verif.Props.Modulate
import Verif.Props.Mesh

/-!
# C115: the energy balance of lossless circuits in time
-/

namespace PT
open Spec Matrix Filter Topology

variable {W B : Type}

theorem sum_delayed_eq (d : ℕ) (a : ℕ → ℝ) (n : ℕ) :
    ∑ t ∈ Finset.range n, a t = ∑ t ∈ Finset.range n, (if d ≤ t then a (t - d) else 0) + ∑ j ∈ Finset.range d, if j < n then a (n - 1 - j) else 0 := by
  induction n with
  | zero => simp
  | succ n ih =>
    rw [Finset.sum_range_succ, Finset.sum_range_succ, ih]
    cases d with
    | zero => simp
    | succ d =>
      rw [Finset.sum_range_succ' (fun j => if j < n + 1 then a (n + 1 - 1 - j) else 0) d, Finset.sum_range_succ _ d]
      have e1 : ∑ k ∈ Finset.range d, (if k + 1 < n + 1 then a (n + 1 - 1 - (k + 1)) else 0) =
          ∑ j ∈ Finset.range d, if j < n then a (n - 1 - j) else 0 := by
        refine Finset.sum_congr rfl fun j _ => ?_
        by_cases h : j < n
        · rw [if_pos h, if_pos (by omega)]
          congr 1
          omega
        · rw [if_neg h, if_neg (by omega)]
      rw [e1, if_pos (Nat.zero_lt_succ n)]
      by_cases h : d < n
      · rw [if_pos h, if_pos (by omega), show n - (d + 1) = n - 1 - d by omega]
        simp only [Nat.add_sub_cancel, Nat.sub_zero]
        ring
      · rw [if_neg h, if_neg (by omega), add_zero, add_zero, add_assoc]
        rfl

theorem powerAt_delayed_eq {ι : Type} [Fintype ι] (term : ι → Bool) (d : ι → ℕ) (a : ℕ → ι → ℂ) (n : ℕ) :
    ∑ t ∈ Finset.range n, powerAt (fun i => !term i) (a t) =
      ∑ t ∈ Finset.range n, powerAt (fun i => !term i) (delayed d a t) + stored term d a n := by
  unfold powerAt stored
  rw [Finset.sum_comm, Finset.sum_comm (s := Finset.range n), ← Finset.sum_add_distrib]
  refine Finset.sum_congr rfl fun i _ => ?_
  cases hi : term i with
  | true => simp [hi]
  | false =>
    simp only [hi]
    simp only [Bool.not_false, if_true, Bool.false_eq_true, if_false]
    rw [sum_delayed_eq (d i) (fun t => Complex.normSq (a t i)) n]
    congr 1
    refine Finset.sum_congr rfl fun t _ => ?_
    unfold delayed
    split
    · rfl
    · simp

/-- The energy balance of the circuit equations. -/
theorem energy_eq {ι : Type} [Fintype ι] [DecidableEq ι] {C : Matrix ι ι ℝ} (hC : Paired C) (S : Matrix ι ι ℂ)
    (term : ι → Bool) (hS : Lossless S term) (hrow : ∀ i, term i = true → ∀ j, S i j = 0) (d : ι → ℕ) (T : ℕ) (s a b : ℕ → ι → ℂ)
    (hs : ∀ t i, term i = false → s t i = 0) (h : Solves (cx C 0) S d T s a b) :
    ∑ t ∈ Finset.range T, powerAt term (a t) + stored term d a T = ∑ t ∈ Finset.range T, power (s t) := by
  have h1 : ∀ t < T, power (a t) = powerAt (fun i => !term i) (delayed d a t) + power (s t) := by
    intro t ht
    rw [h.incoming t ht, power_paired hC, h.outgoing t ht,
      power_add_disjoint term _ _ (fun i hi => by simp [Matrix.mulVec, dotProduct, hrow i hi]) (hs t), lossless_power hS]
  have h2 : ∑ t ∈ Finset.range T, power (a t) =
      ∑ t ∈ Finset.range T, powerAt (fun i => !term i) (delayed d a t) + ∑ t ∈ Finset.range T, power (s t) := by
    rw [← Finset.sum_add_distrib]
    exact Finset.sum_congr rfl fun t ht => h1 t (Finset.mem_range.1 ht)
  have h3 := powerAt_delayed_eq term d a T
  have h4 : ∑ t ∈ Finset.range T, power (a t) = ∑ t ∈ Finset.range T, powerAt term (a t) +
      ∑ t ∈ Finset.range T, powerAt (fun i => !term i) (a t) := by
    rw [← Finset.sum_add_distrib]
    exact Finset.sum_congr rfl fun t _ => power_split term (a t)
  linarith

theorem powerAt_or_add {n : ℕ} (q q' : Fin n → Bool) (h : ∀ i, q i = true → q' i = false) (a : Fin n → ℂ) :
    powerAt (fun i => q i || q' i) a = powerAt q' a + powerAt q a := by
  unfold powerAt
  rw [← Finset.sum_add_distrib]
  refine Finset.sum_congr rfl fun i _ => ?_
  cases h1 : q i with
  | false => simp [h1]
  | true => simp [h1, h i h1]

theorem contracts_of_lossless {ι : Type} [Fintype ι] [DecidableEq ι] {S : Matrix ι ι ℂ} {term : ι → Bool} (h : Lossless S term) : Contracts S := by
  intro v
  rw [lossless_power h, power_split term v]
  have := powerAt_nonneg term v
  linarith

/-- C115. In a fully terminated circuit of lossless components, nested to any depth, no energy is lost: after every step, the energy detected so
far, the energy that returned to the sources and the energy inside the components add up to the energy that was injected. -/
theorem C115_balance (d : Dev) (hM : MadeOf IdealOrEnd d) (ht : d.comp.terminated = true) (v : ℝ) (wl : W → ℝ)
    (env : SimEnv) (dt : ℝ) (hdt : env.dt = some dt) (hpos : 0 < dt) (hf : env.freqdomain = false)
    (hd : portsWith (d.plant v wl).det ≠ []) (r : Reduced W) (hr : initNet (d.plant v wl) env = .ok (some r))
    (cs : List (Actor W B)) (src : ℕ → ℕ → W → B → ℝ × ℝ) :
    ∃ out, forwardPower r env cs src = .ok out ∧ out.length = env.t.length ∧
      ∀ w b, (∃ a b', Solves (cx (d.plant v wl).C 0) (cx ((d.plant v wl).rS w) ((d.plant v wl).iS w)) (circuitDelay d v wl dt) env.t.length
        (fun t => emitted (d.plant v wl).src fun k => asComplex (src t k w b)) a b') ∧
      ∀ a b', Solves (cx (d.plant v wl).C 0) (cx ((d.plant v wl).rS w) ((d.plant v wl).iS w)) (circuitDelay d v wl dt) env.t.length
        (fun t => emitted (d.plant v wl).src fun k => asComplex (src t k w b)) a b' →
        ∀ n ≤ env.t.length, ((out.take n).map fun f => (f w b).sum).sum + ∑ t ∈ Finset.range n, powerAt (d.plant v wl).src (a t) +
          stored (fun i => (d.plant v wl).src i || (d.plant v wl).det i) (circuitDelay d v wl dt) a n =
            ∑ t ∈ Finset.range n, ∑ k ∈ Finset.range (portsWith (d.plant v wl).src).length,
              ((src t k w b).1 ^ 2 + (src t k w b).2 ^ 2) := by
  obtain ⟨hc, L, hP, hL⟩ := madeOf_flat hM
  obtain ⟨out, ho, hl, hsol⟩ := C26_time_domain (d.plant v wl) env dt hdt hpos hf (plant_exclusive hL v wl) (plant_act hL v wl) hd
    (circuitDelay d v wl dt) (fun _ => rfl) (circuit_mix hL v wl dt) r hr cs src
  refine ⟨_, by rw [forwardPower, ho]; rfl, by rw [List.length_map, hl], fun w b => ⟨(hsol w b).1, ?_⟩⟩
  intro a b' h n hn
  have hval := (hsol w b).2 a b' h
  have hE := energy_eq (plant_paired hc ht v wl) (cx ((d.plant v wl).rS w) ((d.plant v wl).iS w)) (fun i => (d.plant v wl).src i || (d.plant v wl).det i) (plant_lossless hL v wl hP w)
    (fun i hi j => (plant_term hL v wl w i hi j).1) (circuitDelay d v wl dt) n _ a b'
    (fun t => emitted_off _ _ _) (solves_mono hn h)
  have hlen : ((out.map fun o w b => (o w b).map fun u => u.1 ^ 2 + u.2 ^ 2).take n).length = n := by
    rw [List.length_take, List.length_map, hl, Nat.min_eq_left hn]
  rw [list_sum_range _ _ (fun t => powerAt (d.plant v wl).det (a t)) (by
    intro t ht
    rw [hlen] at ht
    have h1 : t < out.length := by omega
    rw [List.getElem_take, List.getElem_map, hval t h1]
    exact detected_power (d.plant v wl).det (a t)), hlen]
  have hsplit : ∀ t, powerAt (fun i => (d.plant v wl).src i || (d.plant v wl).det i) (a t) = powerAt (d.plant v wl).det (a t) + powerAt (d.plant v wl).src (a t) := fun t =>
    powerAt_or_add _ _ (fun i hi => by
      have := (plant_exclusive hL v wl i).1
      cases h2 : (d.plant v wl).det i with
      | false => rfl
      | true => exact absurd ⟨hi, h2⟩ this) _
  rw [Finset.sum_congr rfl (fun t _ => hsplit t), Finset.sum_add_distrib] at hE
  refine hE.trans ?_
  simp only [power_emitted]
  refine Finset.sum_congr rfl fun t _ => Finset.sum_congr rfl fun k _ => ?_
  rw [asComplex_power]

/-- The light that is left in a damped circuit after the sources were switched off dies away. -/
theorem stored_tendsto {ι : Type} [Fintype ι] [DecidableEq ι] {C : Matrix ι ι ℝ} (hC : Paired C) (S : Matrix ι ι ℂ) (hS : Contracts S)
    (d : ι → ℕ) (h0 : ∀ v : ι → ℂ, v = (cx C 0 * S) *ᵥ (fun k => if d k = 0 then v k else 0) → v = 0) (hd : Damped (cx C 0) S d)
    (term : ι → Bool) (s : ℕ → ι → ℂ) (m : ℕ) (hs : ∀ t, m ≤ t → s t = 0) (ε : ℝ) (hε : 0 < ε) :
    ∃ N, ∀ T a b, Solves (cx C 0) S d T s a b → ∀ n, N ≤ n → n ≤ T → stored term d a n < ε := by
  obtain ⟨A, hA⟩ := solution_exists (cx C 0 * S) d h0 (fun t => cx C 0 *ᵥ s t)
  have hD : ∀ k, d k ≤ Finset.univ.sup d := fun k => Finset.le_sup (Finset.mem_univ k)
  have hlim : ∀ i, Tendsto (fun t => A t i) atTop (𝓝 0) := by
    intro i
    rw [← Filter.tendsto_add_atTop_iff_nat m]
    refine free_tendsto (cx C 0 * S) d _ hD h0 (fun z hz v hv => damped_outside hC S hS d h0 hd z hz v hv) (fun t => A (t + m)) ?_ i
    intro t ht
    show A (t + m) = _
    rw [hA, hs _ (by omega), Matrix.mulVec_zero, add_zero]
    congr 1
    funext k
    have := hD k
    unfold delayed
    rw [if_pos (by omega), show t + m - d k = t - d k + m by omega]
  have hst : Tendsto (fun n => stored term d A n) atTop (𝓝 0) := by
    have hi : ∀ i ∈ (Finset.univ : Finset ι), Tendsto (fun n => if term i then 0 else
        ∑ j ∈ Finset.range (d i), if j < n then Complex.normSq (A (n - 1 - j) i) else 0) atTop (𝓝 (0 : ℝ)) := by
      intro i _
      cases term i with
      | true => exact tendsto_const_nhds
      | false =>
        have hj : ∀ j ∈ Finset.range (d i), Tendsto (fun n => if j < n then Complex.normSq (A (n - 1 - j) i) else 0) atTop (𝓝 (0 : ℝ)) := by
          intro j _
          rw [← Filter.tendsto_add_atTop_iff_nat (j + 1)]
          have h2 := (Complex.continuous_normSq.tendsto 0).comp (hlim i)
          rw [map_zero] at h2
          refine h2.congr fun n => ?_
          rw [if_pos (by omega), show n + (j + 1) - 1 - j = n by omega]
          rfl
        have := tendsto_finsetSum _ hj
        rw [Finset.sum_const_zero] at this
        exact this
    have := tendsto_finsetSum _ hi
    rw [Finset.sum_const_zero] at this
    exact this
  obtain ⟨N, hN⟩ := (Metric.tendsto_atTop.1 hst) ε hε
  refine ⟨N, fun T a b h n hn hT => ?_⟩
  have heq : ∀ t < T, a t = A t := fun t ht => solution_unique (cx C 0 * S) d h0 (fun t => cx C 0 *ᵥ s t) T a A
    (fun t ht => by rw [h.incoming t ht, h.outgoing t ht, Matrix.mulVec_add, Matrix.mulVec_mulVec]) (fun t _ => hA t) t ht
  have e : stored term d a n = stored term d A n := by
    unfold stored
    refine Finset.sum_congr rfl fun i _ => ?_
    split
    · rfl
    · refine Finset.sum_congr rfl fun j _ => ?_
      split
      · rw [heq _ (by omega)]
      · rfl
  rw [e]
  have := hN n hn
  rw [Real.dist_eq, sub_zero] at this
  exact (le_abs_self _).trans_lt this

/-- C115. If no light circulates for ever, then all energy comes out: once the sources are dark, the energy that was detected or returned to the
sources approaches the energy that was injected. -/
theorem C115_released (d : Dev) (hM : MadeOf IdealOrEnd d) (ht : d.comp.terminated = true) (v : ℝ) (wl : W → ℝ) (dt : ℝ) (hpos : 0 < dt)
    (hd : portsWith (d.plant v wl).det ≠ [])
    (hdamp : ∀ w, Damped (cx (d.plant v wl).C 0) (cx ((d.plant v wl).rS w) ((d.plant v wl).iS w)) (circuitDelay d v wl dt))
    (src : ℕ → ℕ → W → B → ℝ × ℝ) (m : ℕ) (hdark : ∀ t, m ≤ t → ∀ k w b, src t k w b = (0, 0)) (w : W) (b : B) (ε : ℝ) (hε : 0 < ε) :
    ∃ N, ∀ (ts : List ℝ) (r : Reduced W) (cs : List (Actor W B)), initNet (d.plant v wl) ⟨some dt, false, ts⟩ = .ok (some r) →
      ∃ out, forwardPower r ⟨some dt, false, ts⟩ cs src = .ok out ∧ out.length = ts.length ∧
        ∃ a b', Solves (cx (d.plant v wl).C 0) (cx ((d.plant v wl).rS w) ((d.plant v wl).iS w)) (circuitDelay d v wl dt) ts.length
          (fun t => emitted (d.plant v wl).src fun k => asComplex (src t k w b)) a b' ∧
          ∀ n, N ≤ n → n ≤ ts.length → |((out.take n).map fun f => (f w b).sum).sum + ∑ t ∈ Finset.range n, powerAt (d.plant v wl).src (a t) -
            ∑ t ∈ Finset.range m, ∑ k ∈ Finset.range (portsWith (d.plant v wl).src).length,
              ((src t k w b).1 ^ 2 + (src t k w b).2 ^ 2)| < ε := by
  obtain ⟨hc, L, hP, hL⟩ := madeOf_flat hM
  by_cases hex : ∃ (ts : List ℝ) (r : Reduced W), initNet (d.plant v wl) ⟨some dt, false, ts⟩ = .ok (some r)
  · obtain ⟨ts₁, r₁, hr₁⟩ := hex
    have h0 := no_instant (d.plant v wl) ⟨some dt, false, ts₁⟩ dt rfl rfl (plant_exclusive hL v wl) (plant_act hL v wl)
      (circuitDelay d v wl dt) (fun _ => rfl) (circuit_mix hL v wl dt) r₁ hr₁ w
    obtain ⟨N, hN⟩ := stored_tendsto (plant_paired hc ht v wl) _ (contracts_of_lossless (plant_lossless hL v wl hP w))
      (circuitDelay d v wl dt) h0 (hdamp w) (fun i => (d.plant v wl).src i || (d.plant v wl).det i)
      (fun t => emitted (d.plant v wl).src fun k => asComplex (src t k w b)) m (fun t ht => by
        funext i
        unfold emitted
        simp only [hdark t ht]
        split <;> rfl) ε hε
    refine ⟨max N m, fun ts r cs hr => ?_⟩
    obtain ⟨out, h1, h2, h3⟩ := C115_balance d hM ht v wl ⟨some dt, false, ts⟩ dt rfl hpos rfl hd r hr cs src
    obtain ⟨⟨a, b', hab⟩, h4⟩ := h3 w b
    refine ⟨out, h1, h2, a, b', hab, fun n hn hn' => ?_⟩
    have h5 := h4 a b' hab n hn'
    have h6 := hN ts.length a b' hab n (le_of_max_le_left hn) hn'
    have h7 : 0 ≤ stored (fun i => (d.plant v wl).src i || (d.plant v wl).det i) (circuitDelay d v wl dt) a n := by
      unfold stored
      refine Finset.sum_nonneg fun i _ => ?_
      split
      · exact le_rfl
      · refine Finset.sum_nonneg fun j _ => ?_
        split
        · exact Complex.normSq_nonneg _
        · exact le_rfl
    have h8 : ∑ t ∈ Finset.range n, ∑ k ∈ Finset.range (portsWith (d.plant v wl).src).length, ((src t k w b).1 ^ 2 + (src t k w b).2 ^ 2) =
        ∑ t ∈ Finset.range m, ∑ k ∈ Finset.range (portsWith (d.plant v wl).src).length, ((src t k w b).1 ^ 2 + (src t k w b).2 ^ 2) := by
      refine (Finset.sum_subset (Finset.range_subset_range.mpr (le_of_max_le_right hn)) fun t _ h2 => ?_).symm
      refine Finset.sum_eq_zero fun k _ => ?_
      rw [hdark t (by simpa using h2)]
      norm_num
    rw [← h8, ← h5, abs_lt]
    constructor <;> linarith
  · exact ⟨0, fun ts r cs hr => absurd ⟨ts, r, hr⟩ hex⟩

/-- In a feed-forward circuit no light comes back, in time. -/
theorem ff_no_return_time {d : Dev} {front : ℕ → Bool} {rank : ℕ → ℕ} (hff : FeedForward d front rank) (v : ℝ) (wl : W → ℝ)
    (hsrc : ∀ i, (d.plant v wl).src i = true → front i = false) (w : W) (D : Fin d.comp.n → ℕ) (T : ℕ) (s : ℕ → ℕ → ℂ)
    (a b : ℕ → Fin d.comp.n → ℂ) (h : Solves (cx (d.plant v wl).C 0)
      (cx ((d.plant v wl).rS w) ((d.plant v wl).iS w)) D T (fun t => emitted (d.plant v wl).src (s t)) a b) :
    ∀ t < T, ∀ i : Fin d.comp.n, front i = false → a t i = 0 := by
  have step : ∀ n, (∀ t < T, ∀ i : Fin d.comp.n, front i = true → topRank d.comp.n rank - rank i < n → b t i = 0) →
      ∀ t < T, ∀ i : Fin d.comp.n, front i = false → topRank d.comp.n rank - rank i ≤ n → a t i = 0 := by
    intro n hn t ht i hfi hi
    rw [h.incoming t ht]
    refine mulVec_entry_zero fun k hC => ?_
    obtain ⟨c1, c2⟩ := ff_connect hff v wl _ _ hC
    have := c2 hfi
    have hfk : front k = true := by
      rw [hfi] at c1
      cases hk : front k
      · rw [hk] at c1; exact absurd rfl c1
      · rfl
    have t := le_topRank (n := d.comp.n) rank k.2
    exact hn _ ht k hfk (by omega)
  have key : ∀ n, ∀ t < T, ∀ i : Fin d.comp.n, front i = true → topRank d.comp.n rank - rank i < n → b t i = 0 := by
    intro n
    induction n with
    | zero => intro t _ i _ hi; omega
    | succ n ih =>
      intro t ht i hfi hi
      rw [h.outgoing t ht, Pi.add_apply]
      have hs : emitted (d.plant v wl).src (s t) i = 0 := by
        unfold emitted
        rw [if_neg]
        intro h1
        rw [hsrc i h1] at hfi
        cases hfi
      rw [hs, add_zero]
      refine mulVec_entry_zero fun j hS => ?_
      obtain ⟨s1, s2⟩ := ff_scatter hff v wl w _ _ hS
      have hfj : front j = false := by
        rw [hfi] at s1
        cases hj : front j
        · rfl
        · rw [hj] at s1; exact absurd rfl s1
      unfold delayed
      split
      · exact step n ih _ (by omega) j hfj (by omega)
      · rfl
  intro t ht i hi
  exact step _ (key _) t ht i hi le_rfl

/-- C115. In a feed-forward circuit of lossless components with the sources on one side, all light is detected in the end. -/
theorem C115_feedforward (d : Dev) (hM : MadeOf IdealOrEnd d) (ht : d.comp.terminated = true)
    (front : ℕ → Bool) (rank : ℕ → ℕ) (hff : FeedForward d front rank) (v : ℝ) (wl : W → ℝ)
    (hsrc : ∀ i, (d.plant v wl).src i = true → front i = false) (dt : ℝ) (hpos : 0 < dt)
    (hd : portsWith (d.plant v wl).det ≠ [])
    (src : ℕ → ℕ → W → B → ℝ × ℝ) (m : ℕ) (hdark : ∀ t, m ≤ t → ∀ k w b, src t k w b = (0, 0)) (w : W) (b : B) (ε : ℝ) (hε : 0 < ε) :
    ∃ N, ∀ (ts : List ℝ) (cs : List (Actor W B)), ∃ (r : Reduced W) (out : List (W → B → List ℝ)),
      initNet (d.plant v wl) ⟨some dt, false, ts⟩ = .ok (some r) ∧
      forwardPower r ⟨some dt, false, ts⟩ cs src = .ok out ∧ out.length = ts.length ∧
        ∀ n, N ≤ n → n ≤ ts.length → |((out.take n).map fun f => (f w b).sum).sum -
            ∑ t ∈ Finset.range m, ∑ k ∈ Finset.range (portsWith (d.plant v wl).src).length,
              ((src t k w b).1 ^ 2 + (src t k w b).2 ^ 2)| < ε := by
  have hM' : MadeOf (fun p => ∀ wl, Contracts (scattering p wl)) d := hM.mono fun p hp wl => by
    rcases hp with rfl | rfl | hp
    · exact C65_contracts_partial .source trivial (by simp) wl
    · exact C65_contracts_partial .detector trivial (by simp) wl
    · exact fun u => (hp wl u).le
  obtain ⟨N, hN⟩ := C115_released d hM ht v wl dt hpos hd (C82_feedforward d hM' ht front rank hff v wl dt) src m hdark w b ε hε
  refine ⟨N, fun ts cs => ?_⟩
  obtain ⟨i₀, hi₀⟩ := List.exists_mem_of_ne_nil _ hd
  obtain ⟨r, hr⟩ := C75_initialized _ d hM ht front rank hff v wl ⟨some dt, false, ts⟩ ⟨i₀, by
    simp only [portsWith, List.mem_filter] at hi₀
    rw [Bool.or_eq_true]
    exact .inr hi₀.2⟩
  obtain ⟨out, h1, h2, a, b', hab, h3⟩ := hN ts r cs hr
  refine ⟨r, out, hr, h1, h2, fun n hn hn' => ?_⟩
  have h4 := h3 n hn hn'
  have h5 : ∑ t ∈ Finset.range n, powerAt (d.plant v wl).src (a t) = 0 := by
    refine Finset.sum_eq_zero fun t ht => Finset.sum_eq_zero fun i _ => ?_
    split
    · rename_i hi
      rw [ff_no_return_time hff v wl hsrc w _ _ (fun t k => asComplex (src t k w b)) a b' hab t
        (lt_of_lt_of_le (Finset.mem_range.mp ht) hn') i (hsrc i hi), map_zero]
    · rfl
  rwa [h5, add_zero] at h4

theorem mesh_delivers {N : ℕ} (hN : 0 < N) {d : Dev} (hd : LayerOK LosslessPart N d)
    (ho : Oriented d fun j => decide (j < N)) (nw newName : Str) (hg : GoodName nw) (hs : nw.head? ≠ some 's')
    (hdd : nw.head? ≠ some 'd') :
    ∃ d', termDev newName nw d (meshTerms N) = .ok d' ∧ d'.comp.terminated = true ∧ Delivers N d' := by
  obtain ⟨d', h1, hm, ht, ⟨front, rank, hff, hsrc⟩, c1, c2, -⟩ := term_made (fun _ => lossless_ne) hN hd ho nw newName hg hs hdd
  refine ⟨d', h1, ht, fun W B v wl dt hpos src m hdark w b ε hε => ?_⟩
  obtain ⟨m1, m2, -⟩ := built_marks hm.ok.1
  have e1 : (portsWith (d'.plant v wl).src).length = N := by rw [← c1]; exact count_marks _ _ m1
  have e2 : (portsWith (d'.plant v wl).det).length = N := by rw [← c2]; exact count_marks _ _ m2
  have h := C115_feedforward d' hm ht front rank hff v wl (fun i hi => hsrc i hi) dt hpos
    (by intro h0; rw [h0] at e2; simp at e2; omega) src m hdark w b ε hε
  rwa [e1] at h

/-- C115. Reck networks of every size, of lossless four-port components and lossless waveguides of any lengths, deliver all energy to their
detectors. -/
theorem C115_reck (N : ℕ) (hN : 2 ≤ N) (mz : ℕ → ℕ → Part) (wg : ℕ → Part)
    (hm : ∀ m i, LosslessPart (mz m i) ∧ FourPort (mz m i)) (hw : ∀ m, LosslessPart (wg m) ∧ TwoPort (wg m))
    (newName : Str) :
    ∃ d d', reck N mz wg = .ok d ∧ termDev newName reckCls d (meshTerms N) = .ok d' ∧ Delivers N d' := by
  obtain ⟨d, h, hd, ho⟩ := reck_made (P := LosslessPart) hN hm hw
  obtain ⟨d', h1, -, h2⟩ := mesh_delivers (by omega) hd ho reckCls newName (attr_of (by decide)).1 (by decide) (by decide)
  exact ⟨d, d', h, h1, h2⟩

/-- C115. Likewise Clements networks of every size and capacity. -/
theorem C115_clements (N capacity : ℕ) (hN : 2 ≤ N) (hc : 2 ≤ capacity) (mz wg : ℕ → ℕ → Part)
    (hm : ∀ m i, LosslessPart (mz m i) ∧ FourPort (mz m i)) (hw : ∀ m i, LosslessPart (wg m i) ∧ TwoPort (wg m i))
    (newName : Str) :
    ∃ d d', clements N capacity mz wg = .ok d ∧ termDev newName clementsCls d (meshTerms N) = .ok d' ∧ Delivers N d' := by
  obtain ⟨d, h, hd, ho⟩ := clements_made (P := LosslessPart) hN hc hm hw
  obtain ⟨d', h1, -, h2⟩ := mesh_delivers (by omega) hd ho clementsCls newName (attr_of (by decide)).1 (by decide) (by decide)
  exact ⟨d, d', h, h1, h2⟩

/-! ## Examples -/

/-- Meshes of Mach-Zehnder interferometers with delays. -/
example : ∃ d d', reck 5 (fun m i => .mzi (m + 1) (i + 2) 2.34 3.4 1.55e-6 1e-5 0)
    (fun m => .waveguide 1e-5 0 2.34 1.55e-6 3.4 m) = .ok d ∧ termDev [] reckCls d (meshTerms 5) = .ok d' ∧ Delivers 5 d' :=
  C115_reck 5 (by omega) _ _ (fun _ _ => mzi_four ..) (fun _ => waveguide_two ..) []

example : ∃ d d', clements 5 7 (fun m i => .mzi (m + 1) (i + 2) 2.34 3.4 1.55e-6 1e-5 0)
    (fun _ i => .waveguide 1e-5 0 2.34 1.55e-6 3.4 i) = .ok d ∧ termDev [] clementsCls d (meshTerms 5) = .ok d' ∧ Delivers 5 d' :=
  C115_clements 5 7 (by omega) (by omega) _ _ (fun _ _ => mzi_four ..) (fun _ _ => waveguide_two ..) []

/-- The balance of a Reck mesh of interferometers, after every step. -/
example (v : ℝ) (wl : W → ℝ) (ts : List ℝ) (src : ℕ → ℕ → W → B → ℝ × ℝ) : ∃ (d : Dev) (r : Reduced W) (out : List (W → B → List ℝ)),
    (portsWith (d.plant v wl).src).length = 5 ∧ initNet (d.plant v wl) ⟨some 1e-14, false, ts⟩ = .ok (some r) ∧
    forwardPower r ⟨some 1e-14, false, ts⟩ [] src = .ok out ∧ out.length = ts.length ∧ ∀ w b, ∃ a : ℕ → Fin d.comp.n → ℂ, ∀ n ≤ ts.length,
      ((out.take n).map fun f => (f w b).sum).sum + ∑ t ∈ Finset.range n, powerAt (d.plant v wl).src (a t) +
          stored (fun i => (d.plant v wl).src i || (d.plant v wl).det i) (circuitDelay d v wl 1e-14) a n =
            ∑ t ∈ Finset.range n, ∑ k ∈ Finset.range 5, ((src t k w b).1 ^ 2 + (src t k w b).2 ^ 2) := by
  obtain ⟨d, -, hd, ho⟩ := reck_made (P := LosslessPart) (N := 5) (by omega) (mz := fun m i => .mzi (m + 1) (i + 2) 2.34 3.4 1.55e-6 1e-5 0)
    (wg := fun m => .waveguide 1e-5 0 2.34 1.55e-6 3.4 m) (fun _ _ => mzi_four ..) (fun _ => waveguide_two ..)
  obtain ⟨d', h1, hm, ht, ⟨front, rank, hff, hsrc⟩, c1, c2, -⟩ := term_made (fun _ => lossless_ne) (by omega) hd ho reckCls []
    (attr_of (by decide)).1 (by decide) (by decide)
  obtain ⟨m1, m2, -⟩ := built_marks hm.ok.1
  have e1 : (portsWith (d'.plant v wl).src).length = 5 := by rw [← c1]; exact count_marks _ _ m1
  have e2 : (portsWith (d'.plant v wl).det).length = 5 := by rw [← c2]; exact count_marks _ _ m2
  have hne : portsWith (d'.plant v wl).det ≠ [] := by intro h0; rw [h0] at e2; simp at e2
  obtain ⟨i₀, hi₀⟩ := List.exists_mem_of_ne_nil _ hne
  obtain ⟨r, hr⟩ := C75_initialized _ d' hm ht front rank hff v wl ⟨some 1e-14, false, ts⟩ ⟨i₀, by
    simp only [portsWith, List.mem_filter] at hi₀
    rw [Bool.or_eq_true]
    exact .inr hi₀.2⟩
  obtain ⟨out, h1, h2, h3⟩ := C115_balance d' hm ht v wl ⟨some 1e-14, false, ts⟩ 1e-14 rfl (by norm_num) rfl hne r hr [] src
  refine ⟨d', r, out, e1, hr, h1, h2, fun w b => ?_⟩
  obtain ⟨⟨a, b', hab⟩, h4⟩ := h3 w b
  refine ⟨a, fun n hn => ?_⟩
  have := h4 a b' hab n hn
  rwa [e1] at this

end PT
