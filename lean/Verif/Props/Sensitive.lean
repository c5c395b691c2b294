import Verif.Proof.SensitiveTime
import Verif.Props.Modulate

/-! C149: Circuits of components whose scattering matrices are rounded. -/

namespace PT
open Spec Matrix

variable {W B : Type}

namespace Sens

theorem withS_cx (p : Plant W) (S' : W → Matrix (Fin p.n) (Fin p.n) ℂ) (w : W) : cx ((withS p S').rS w) ((withS p S').iS w) = S' w := by
  ext1 i j
  exact Complex.ext rfl rfl

theorem mismatch_le {n : ℕ} (q : Fin n → Bool) (x y : Fin n → ℂ) :
    mismatch ((portsWith q).map fun i => ((x i).re, (x i).im)) ((portsWith q).map fun i => ((y i).re, (y i).im)) ≤
      power (part (fun i => q i = true) (x - y)) := by
  have e : ∀ l : List (Fin n), mismatch (l.map fun i => ((x i).re, (x i).im)) (l.map fun i => ((y i).re, (y i).im)) =
      (l.map fun i => Complex.normSq ((x - y) i)).sum := by
    intro l
    unfold mismatch
    induction l with
    | nil => rfl
    | cons i l ih =>
      simp only [List.map_cons, List.zipWith_cons_cons, List.sum_cons]
      rw [ih, Complex.normSq_apply]
      simp only [Pi.sub_apply, Complex.sub_re, Complex.sub_im, sq]
  have hnd : (portsWith q).Nodup := (List.nodup_finRange _).filter _
  rw [e, ← List.sum_toFinset _ hnd]
  have e2 : ∑ i ∈ (portsWith q).toFinset, Complex.normSq ((x - y) i) =
      ∑ i ∈ (portsWith q).toFinset, Complex.normSq (part (fun i => q i = true) (x - y) i) := by
    refine Finset.sum_congr rfl fun i hi => ?_
    have : q i = true := (List.mem_filter.1 (List.mem_toFinset.1 hi)).2
    unfold part
    rw [if_pos this]
  refine (le_of_eq e2).trans ?_
  exact Finset.sum_le_sum_of_subset_of_nonneg (Finset.subset_univ _) fun i _ _ => Complex.normSq_nonneg _

theorem not_ml {p : Plant W} {env : SimEnv} (hf : env.freqdomain = true) (hact : ∀ i, p.act i = false) (i : Fin p.n)
    (h : i ∉ p.mlPorts env) : (p.src i || p.det i) = true := by
  rw [mem_mlPorts, Bool.not_eq_false] at h
  unfold Plant.mcAt at h
  rw [steps_freq p env hf, hact i] at h
  simpa using h

theorem ml_nodup (p : Plant W) (env : SimEnv) : (p.mlPorts env).Nodup := (List.nodup_finRange _).filter _

end Sens

/-- A bound for the fields at the detectors bounds the results. -/
theorem Sens.results (d : Dev) (hM : MadeOf (fun _ => True) d) (ht : d.comp.terminated = true) (v : ℝ) (wl : W → ℝ)
    (hd : portsWith (d.plant v wl).det ≠ []) (κ ε : ℝ) (h0 : 0 ≤ κ) (hs : κ * ε < 1)
    (hκ : ∀ w, EnhancesBy κ (cx (d.plant v wl).C 0) (cx ((d.plant v wl).rS w) ((d.plant v wl).iS w)))
    (S' : W → Matrix (Fin d.comp.n) (Fin d.comp.n) ℂ) (hS' : EndsDark (d.plant v wl) S')
    (hε : ∀ w, DeviatesBy ε (cx ((d.plant v wl).rS w) ((d.plant v wl).iS w)) (S' w)) (Q : ℝ)
    (hQ : ∀ (w : W) (c : ℕ → ℂ) (a b a' b' : Fin d.comp.n → ℂ),
      SolvesStatic (cx (d.plant v wl).C 0) (cx ((d.plant v wl).rS w) ((d.plant v wl).iS w)) (emitted (d.plant v wl).src c) a b →
      SolvesStatic (cx (d.plant v wl).C 0) (S' w) (emitted (d.plant v wl).src c) a' b' →
      √(power (Sens.part (fun i => (d.plant v wl).det i = true) (a' - a))) ≤ Q * √(power (emitted (d.plant v wl).src c))) :
    ResultsWithin Q (d.plant v wl) (withS (d.plant v wl) S') := by
  intro env hf ht1
  obtain ⟨hc, L, -, hL⟩ := madeOf_flat hM
  set p := d.plant v wl with hp
  have hact := plant_act hL v wl
  have hT := plant_terminated hc ht v wl
  obtain ⟨i₀, hi₀⟩ := List.exists_mem_of_ne_nil _ hd
  have hi₁ : p.det i₀ = true := (List.mem_filter.1 hi₀).2
  have hmc : p.mcAt env i₀ = true := mcAt_of_marked p env i₀ (by rw [hi₁, Bool.or_true])
  have hmc' : (withS p S').mcAt env i₀ = true := mcAt_of_marked (withS p S') env i₀ (by
    show (p.src i₀ || p.det i₀) = true
    rw [hi₁, Bool.or_true])
  have hdev0 : ∀ w, DeviatesBy 0 (cx (p.rS w) (p.iS w)) (cx (p.rS w) (p.iS w)) := by
    intro w u
    rw [sub_self, Matrix.zero_mulVec, zero_mul]
    have : power (0 : Fin p.n → ℂ) = 0 := by simp [power]
    rw [this, Real.sqrt_zero]
  obtain ⟨r, hr⟩ := C26_initialized p env hT ⟨i₀, hmc⟩ fun w =>
    Sens.pick_det _ (Sens.ml_nodup p env) (fun i hi j => plant_term hL v wl w i (Sens.not_ml hf hact i hi) j)
      fun x hx => Sens.no_mode (hκ w) (hdev0 w) h0 (by rw [mul_zero]; exact one_pos) x hx
  obtain ⟨r', hr'⟩ := C26_initialized (withS p S') env hT ⟨i₀, hmc'⟩ fun w => by
    rw [Sens.withS_cx]
    exact Sens.pick_det _ (Sens.ml_nodup (withS p S') env) (fun i hi j => hS' w i (Sens.not_ml (p := withS p S') hf hact i hi) j)
      fun x hx => Sens.no_mode (hκ w) (hε w) h0 hs x hx
  refine ⟨r, r', hr, hr', fun B cs src => ?_⟩
  obtain ⟨o, ho, hsol⟩ := C27_freq_domain p env hf ht1 (plant_exclusive hL v wl) hact hd (plant_term hL v wl) r hr cs src
  obtain ⟨o', ho', hsol'⟩ := C27_freq_domain (withS p S') env hf ht1 (plant_exclusive hL v wl) hact hd
    (fun w i hi j => by rw [Sens.withS_cx]; exact hS' w i hi j) r' hr' cs src
  refine ⟨o, o', ho, ho', fun w b => ?_⟩
  obtain ⟨⟨a, b₁, h⟩, hall⟩ := hsol w b
  obtain ⟨⟨a', b₁', h'⟩, hall'⟩ := hsol' w b
  have e := hall _ _ h
  have e' := hall' _ _ h'
  rw [e, e']
  rw [Sens.withS_cx] at h'
  refine ⟨by rw [List.length_map, List.length_map]; rfl, ?_⟩
  exact (Real.sqrt_le_sqrt (Sens.mismatch_le p.det a' a)).trans (hQ w _ a b₁ a' b₁' h h')

/-- C149. Any circuit in which light is enhanced by at most `κ`: if the scattering matrices are wrong by at most `ε`, with `κ * ε` less
than one, it can still be simulated, and the result is wrong by at most `κ² ε / (1 - κ ε)`. -/
theorem C149_near (d : Dev) (hM : MadeOf (fun _ => True) d) (ht : d.comp.terminated = true) (v : ℝ) (wl : W → ℝ)
    (hd : portsWith (d.plant v wl).det ≠ []) (κ ε : ℝ) (h0 : 0 ≤ κ) (hs : κ * ε < 1)
    (hκ : ∀ w, EnhancesBy κ (cx (d.plant v wl).C 0) (cx ((d.plant v wl).rS w) ((d.plant v wl).iS w)))
    (S' : W → Matrix (Fin d.comp.n) (Fin d.comp.n) ℂ) (hS' : EndsDark (d.plant v wl) S')
    (hε : ∀ w, DeviatesBy ε (cx ((d.plant v wl).rS w) ((d.plant v wl).iS w)) (S' w)) :
    ResultsWithin (κ ^ 2 * ε / (1 - κ * ε)) (d.plant v wl) (withS (d.plant v wl) S') := by
  exact Sens.results d hM ht v wl hd κ ε h0 hs hκ S' hS' hε _ fun w c a b a' b' h h' =>
    (Real.sqrt_le_sqrt (Sens.power_part_le _ _)).trans (Sens.fields_near (hκ w) (hε w) h0 hs h h')

/-- C149. Every circuit that can be simulated enhances light by some factor only, so its results depend continuously on its scattering
matrices, with errors in proportion. -/
theorem C149_continuous [Finite W] (d : Dev) (hM : MadeOf (fun _ => True) d) (ht : d.comp.terminated = true) (v : ℝ) (wl : W → ℝ)
    (hd : portsWith (d.plant v wl).det ≠ []) (env : SimEnv) (hf : env.freqdomain = true) (r : Reduced W)
    (hr : initNet (d.plant v wl) env = .ok (some r)) :
    ∃ K ε₀ : ℝ, 0 < K ∧ 0 < ε₀ ∧ ∀ ε, 0 ≤ ε → ε ≤ ε₀ → ∀ S' : W → Matrix (Fin d.comp.n) (Fin d.comp.n) ℂ, EndsDark (d.plant v wl) S' →
      (∀ w, DeviatesBy ε (cx ((d.plant v wl).rS w) ((d.plant v wl).iS w)) (S' w)) →
      ResultsWithin (K * ε) (d.plant v wl) (withS (d.plant v wl) S') := by
  obtain ⟨hc, L, -, hL⟩ := madeOf_flat hM
  have hact := plant_act hL v wl
  obtain ⟨-, C, hC, -⟩ := initNet_some hr
  have hdet : ∀ w, (1 - pick (cx (d.plant v wl).C 0) ((d.plant v wl).mlPorts env) ((d.plant v wl).mlPorts env) *
      pick (cx ((d.plant v wl).rS w) ((d.plant v wl).iS w)) ((d.plant v wl).mlPorts env) ((d.plant v wl).mlPorts env)).det ≠ 0 := by
    intro w h0
    have hl : (d.plant v wl).mlPorts env ≠ [] := by
      intro hnil
      revert h0
      rw [hnil]
      rw [Matrix.det_eq_one_of_card_eq_zero (by simp)]
      exact one_ne_zero
    have := (C25_failure (d.plant v wl).C (d.plant v wl).rS (d.plant v wl).iS ((d.plant v wl).mcOrder env) ((d.plant v wl).mlPorts env)
      .runtimeError).2 ⟨rfl, w, h0⟩
    rw [hC] at this
    cases this
  have hex : ∀ w, ∃ κ, 0 < κ ∧ EnhancesBy κ (cx (d.plant v wl).C 0) (cx ((d.plant v wl).rS w) ((d.plant v wl).iS w)) := fun w =>
    Sens.enhances_of_no_mode _ _ fun x hx => Sens.no_mode_of_pick _ (Sens.ml_nodup (d.plant v wl) env)
      (fun i hi j => plant_term hL v wl w i (Sens.not_ml hf hact i hi) j) (hdet w) x hx
  choose κ hκ0 hκ using hex
  obtain ⟨M, hMx⟩ := (Set.finite_range κ).bddAbove
  obtain ⟨κ', hκ'⟩ : ∃ κ', κ' = max M 1 := ⟨_, rfl⟩
  have h1 : 1 ≤ κ' := hκ' ▸ le_max_right _ _
  have hall : ∀ w, EnhancesBy κ' (cx (d.plant v wl).C 0) (cx ((d.plant v wl).rS w) ((d.plant v wl).iS w)) := by
    intro w s a b h
    refine (hκ w s a b h).trans (mul_le_mul_of_nonneg_right ?_ (Real.sqrt_nonneg _))
    exact (hMx (Set.mem_range_self w)).trans (hκ' ▸ le_max_left _ _)
  refine ⟨2 * κ' ^ 2, 1 / (2 * κ'), by positivity, by positivity, fun ε hε0 hε S' hS' hdev => ?_⟩
  have hle : κ' * ε ≤ 1 / 2 := by
    rw [le_div_iff₀ (by positivity)] at hε
    nlinarith
  have key := C149_near d hM ht v wl hd κ' ε (by linarith) (by linarith) hall S' hS' hdev
  intro env hf ht1
  obtain ⟨r, r', hr, hr', hB⟩ := key env hf ht1
  refine ⟨r, r', hr, hr', fun B cs src => ?_⟩
  obtain ⟨o, o', ho, ho', hw⟩ := hB B cs src
  refine ⟨o, o', ho, ho', fun w b => ⟨(hw w b).1, (hw w b).2.trans (mul_le_mul_of_nonneg_right ?_ (Real.sqrt_nonneg _))⟩⟩
  rw [div_le_iff₀ (by linarith)]
  have : 0 ≤ κ' ^ 2 * ε := by positivity
  nlinarith

/-- No port is connected to two others. -/
theorem Sens.partner {d : Dev} (hc : Clean d.comp) (v : ℝ) (wl : W → ℝ) (i j k : Fin d.comp.n) (h : cx (d.plant v wl).C 0 i j ≠ 0)
    (h' : cx (d.plant v wl).C 0 i k ≠ 0) : j = k := by
  have hone := (C19_clean_partial _ hc).2
  have e : ∀ m : Fin d.comp.n, cx (d.plant v wl).C 0 i m ≠ 0 → d.comp.C i m ≠ 0 := by
    intro m hm h0
    apply hm
    show (⟨((d.comp.C i m : ℚ) : ℝ), 0⟩ : ℂ) = 0
    rw [h0, Rat.cast_zero]
    rfl
  exact Fin.ext (hone _ _ _ (e _ h) (e _ h'))

/-- Ranks make columns. -/
theorem Sens.ff_levels {d : Dev} (hM : MadeOf (fun _ => True) d) {front : ℕ → Bool} {rank : ℕ → ℕ} (hff : FeedForward d front rank)
    (v : ℝ) (wl : W → ℝ) (w : W) : Sens.Levels (cx (d.plant v wl).C 0 * cx ((d.plant v wl).rS w) ((d.plant v wl).iS w))
      fun i : Fin d.comp.n => if front i = true then rank i else topRank d.comp.n rank - rank i := by
  refine ⟨fun i k h => ff_rank hM hff v wl w i k h, fun i k k' h h' => ?_⟩
  obtain ⟨hc, L, -, hL⟩ := madeOf_flat hM
  rw [Matrix.mul_apply] at h h'
  obtain ⟨j, -, hj⟩ := Finset.exists_ne_zero_of_sum_ne_zero h
  obtain ⟨j', -, hj'⟩ := Finset.exists_ne_zero_of_sum_ne_zero h'
  have hjj : j = j' := Sens.partner hc v wl i j j' (left_ne_zero_of_mul hj) (left_ne_zero_of_mul hj')
  subst hjj
  obtain ⟨s1, s2⟩ := ff_scatter hff v wl w _ _ (right_ne_zero_of_mul hj)
  obtain ⟨s1', s2'⟩ := ff_scatter hff v wl w _ _ (right_ne_zero_of_mul hj')
  have e : front k = front k' := by
    cases hf : front j <;> cases hk : front k <;> cases hk' : front k' <;> simp_all
  show (if front k = true then rank k else _ - rank k) = if front k' = true then rank k' else _ - rank k'
  rw [e, ← s2, ← s2']

/-- C149. Circuits in which light travels in one direction: errors of at most `δ` in at most `m` entries of each row and column. No
condition but that the errors are small is needed, and the bound is explicit: errors add up, once for every column of components. -/
theorem C149_feedforward (d : Dev) (hM : MadeOf (fun p => ∀ wl, Contracts (scattering p wl)) d) (ht : d.comp.terminated = true)
    (front : ℕ → Bool) (rank : ℕ → ℕ) (hff : FeedForward d front rank) (D : ℕ) (hD : ∀ i < d.comp.n, rank i ≤ D) (v : ℝ) (wl : W → ℝ)
    (hd : portsWith (d.plant v wl).det ≠ []) (δ : ℝ) (m : ℕ) (h0 : 0 ≤ δ) (hs : (D + 1) * (m * δ) < 1)
    (S' : W → Matrix (Fin d.comp.n) (Fin d.comp.n) ℂ) (hS' : EndsDark (d.plant v wl) S')
    (hε : ∀ w, EntriesWithin δ m (cx ((d.plant v wl).rS w) ((d.plant v wl).iS w)) (S' w)) :
    ResultsWithin ((D + 2) * (m * δ) / (1 - (D + 1) * (m * δ))) (d.plant v wl) (withS (d.plant v wl) S') := by
  obtain ⟨hc, L, hP, hL⟩ := madeOf_flat hM
  have htop : topRank d.comp.n rank ≤ D := Finset.sup_le fun i hi => hD i (Finset.mem_range.1 hi)
  have hφD : ∀ i : Fin d.comp.n, (if front i = true then rank i else topRank d.comp.n rank - rank i) ≤ D := by
    intro i
    split
    · exact hD i i.2
    · omega
  have hdev := fun w => Sens.deviates_of_entries (hε w) h0
  refine Sens.results d (madeOf_any hM) ht v wl hd (D + 1) (m * δ) (by positivity) hs
    (fun w => Sens.enhances_of_potential (plant_paired hc ht v wl) _ (plant_contracts hL v wl hP w) _ D
      (Sens.ff_levels (madeOf_any hM) hff v wl w).up hφD) S' hS' hdev _ fun w c a b a' b' h h' => ?_
  refine Sens.columns_near (plant_paired hc ht v wl) (plant_contracts hL v wl hP w) (Sens.ff_levels (madeOf_any hM) hff v wl w) hφD
    (by positivity) (hdev w) hs (q := (d.plant v wl).det) (fun i hi j => (plant_term hL v wl w i (by rw [hi, Bool.or_true]) j).2)
    (fun i hi j => ?_) h h'
  have hsi : (d.plant v wl).src i = true := by
    by_contra hn
    apply hi
    unfold emitted
    exact if_neg hn
  exact (plant_term hL v wl w i (by rw [hsi, Bool.true_or]) j).1

/-- Components that pass at most a fraction `ρ` of the amplitude make up a circuit of that kind. -/
theorem Sens.plant_absorbs {d : Dev} {L : List Part} (hf : Flat d L) (v : ℝ) (wl : W → ℝ) (ρ : ℝ) (h0 : 0 ≤ ρ)
    (hL : ∀ p ∈ L, ∀ wl u, power (scattering p wl *ᵥ u) ≤ ρ ^ 2 * power u) (w : W) (u : Fin d.comp.n → ℂ) :
    √(power (cx ((d.plant v wl).rS w) ((d.plant v wl).iS w) *ᵥ u)) ≤ ρ * √(power u) := by
  have h1 : power (cx ((d.plant v wl).rS w) ((d.plant v wl).iS w) *ᵥ u) ≤ ρ ^ 2 * power u := by
    rw [plant_power hf]
    have key : ∀ (L : List Part), (∀ p ∈ L, ∀ wl u, power (scattering p wl *ᵥ u) ≤ ρ ^ 2 * power u) → ∀ u : ℕ → ℂ,
        blockPower (wl w) L u ≤ ρ ^ 2 * ∑ i ∈ Finset.range (partsN L), Complex.normSq (u i) := by
      intro L
      induction L with
      | nil => intro _ u; simp [blockPower, partsN]
      | cons p L ih =>
        intro hL u
        have hn : partsN (p :: L) = p.n + partsN L := by simp [partsN]
        rw [hn, Finset.sum_range_add, mul_add]
        unfold blockPower
        refine add_le_add ?_ (ih (fun q hq => hL q (by simp [hq])) _)
        refine (hL p (by simp) (wl w) _).trans (le_of_eq ?_)
        unfold power
        rw [← Fin.sum_univ_eq_sum_range (fun i => Complex.normSq (u i))]
    refine (key L hL _).trans (le_of_eq ?_)
    rw [sum_extend hf _ u]
    rfl
  refine (Real.sqrt_le_sqrt h1).trans (le_of_eq ?_)
  rw [Real.sqrt_mul (sq_nonneg _), Real.sqrt_sq h0]

/-- C149. Circuits all of whose components lose light, whether or not light goes round in them. -/
theorem C149_absorbing (d : Dev) (ρ : ℝ) (hρ : 0 ≤ ρ) (hM : MadeOf (fun p => ∀ wl u, power (scattering p wl *ᵥ u) ≤ ρ ^ 2 * power u) d)
    (ht : d.comp.terminated = true) (v : ℝ) (wl : W → ℝ) (hd : portsWith (d.plant v wl).det ≠ []) (ε : ℝ) (h0 : 0 ≤ ε) (hs : ρ + ε < 1)
    (S' : W → Matrix (Fin d.comp.n) (Fin d.comp.n) ℂ) (hS' : EndsDark (d.plant v wl) S')
    (hε : ∀ w, DeviatesBy ε (cx ((d.plant v wl).rS w) ((d.plant v wl).iS w)) (S' w)) :
    ResultsWithin (ε / ((1 - ρ) * (1 - ρ - ε))) (d.plant v wl) (withS (d.plant v wl) S') := by
  obtain ⟨hc, L, hP, hL⟩ := madeOf_flat hM
  have h1 : 0 < 1 - ρ := by linarith
  have h2 : 0 < 1 - ρ - ε := by linarith
  have key := C149_near d (madeOf_any hM) ht v wl hd (1 / (1 - ρ)) ε (by positivity)
    (by rw [div_mul_eq_mul_div, one_mul, div_lt_one h1]; linarith)
    (fun w => Sens.enhances_of_absorbing (plant_paired hc ht v wl) _ ρ (by linarith) (Sens.plant_absorbs hL v wl ρ hρ hP w)) S' hS' hε
  have e : (1 / (1 - ρ)) ^ 2 * ε / (1 - 1 / (1 - ρ) * ε) = ε / ((1 - ρ) * (1 - ρ - ε)) := by
    have : 1 - 1 / (1 - ρ) * ε = (1 - ρ - ε) / (1 - ρ) := by field_simp
    rw [this]
    field_simp
  rwa [e] at key

namespace Sens

theorem partAt_inj' : ∀ (L : List Part) {i j : ℕ} {k : ℕ} {p q : Part} {l : ℕ}, partAt L i = some (k, p, l) → partAt L j = some (k, q, l) → i = j
  | [], _, _, _, _, _, _, h, _ => by cases h
  | p₀ :: L, i, j, k, p, q, l, h1, h2 => by
    unfold partAt at h1 h2
    split at h1 <;> split at h2
    · simp only [Option.some.injEq, Prod.mk.injEq] at h1 h2
      omega
    · rename_i hj
      simp only [Option.some.injEq, Prod.mk.injEq] at h1
      obtain ⟨⟨a, b, c⟩, -, e⟩ := Option.map_eq_some_iff.1 h2
      simp only [Prod.mk.injEq] at e
      omega
    · rename_i hi hj
      simp only [Option.some.injEq, Prod.mk.injEq] at h2
      obtain ⟨⟨a, b, c⟩, -, e⟩ := Option.map_eq_some_iff.1 h1
      simp only [Prod.mk.injEq] at e
      omega
    · rename_i hi hj
      obtain ⟨⟨a, b, c⟩, e1, e2⟩ := Option.map_eq_some_iff.1 h1
      obtain ⟨⟨a', b', c'⟩, e1', e2'⟩ := Option.map_eq_some_iff.1 h2
      simp only [Prod.mk.injEq] at e2 e2'
      obtain ⟨ha, rfl, rfl⟩ := e2
      obtain ⟨ha', rfl, rfl⟩ := e2'
      obtain rfl : a = a' := by omega
      have := partAt_inj' L e1 e1'
      omega

end Sens

/-- C149. The components of a circuit, with their matrices known to `δ` (sources and detectors exactly): the circuit is of the kind
considered above. For any such approximation of the components, there is that of the circuit. -/
theorem C149_components (P : Part → Prop) (d : Dev) (hM : MadeOf P d) (v : ℝ) (wl : W → ℝ) (δ : ℝ) (m : ℕ) (hδ : 0 ≤ δ)
    (hP : ∀ p, P p → p.n ≤ m) (rnd : (p : Part) → ℝ → Matrix (Fin p.n) (Fin p.n) ℂ)
    (hend : ∀ p, p = .source ∨ p = .detector → ∀ wl, rnd p wl = 0)
    (hrnd : ∀ p, P p → ∀ w i j, ‖rnd p (wl w) i j - scattering p (wl w) i j‖ ≤ δ) :
    ∃ (L : List Part) (at_ : Fin d.comp.n → ℕ × ℕ), (∀ p ∈ L, P p) ∧
      BlockWise scattering wl L at_ (fun w => cx ((d.plant v wl).rS w) ((d.plant v wl).iS w)) ∧
      (∃ S', BlockWise rnd wl L at_ S') ∧
      ∀ S', BlockWise rnd wl L at_ S' → EndsDark (d.plant v wl) S' ∧ KeepsDelays (d.plant v wl) S' ∧
        ∀ w, EntriesWithin δ m (cx ((d.plant v wl).rS w) ((d.plant v wl).iS w)) (S' w) := by
  classical
  obtain ⟨-, L, hPL, hL⟩ := madeOf_flat hM
  have hex : ∀ i : Fin d.comp.n, ∃ q : ℕ × ℕ, ∃ p, partAt L i = some (q.1, p, q.2) := by
    intro i
    obtain ⟨k, p, i', h⟩ := partAt_lt L i (by rw [← hL.n]; exact i.2)
    exact ⟨(k, i'), p, h⟩
  choose q hq using hex
  have hinj : Function.Injective q := by
    intro i j hij
    obtain ⟨p, hp⟩ := hq i
    obtain ⟨p', hp'⟩ := hq j
    rw [hij] at hp
    exact Fin.ext (Sens.partAt_inj' L hp hp')
  have hmem : ∀ i p, L[(q i).1]? = some p → P p := fun i p h => hPL p (List.mem_of_getElem? h)
  have hexact : BlockWise scattering wl L q (fun w => cx ((d.plant v wl).rS w) ((d.plant v wl).iS w)) := by
    refine ⟨hinj, fun i => ?_⟩
    obtain ⟨p, hp⟩ := hq i
    obtain ⟨h1, h2⟩ := partAt_mem L i hp
    refine ⟨p, h1, h2, fun w j => ?_⟩
    obtain ⟨p2, hp2⟩ := hq j
    dsimp only
    rw [show ∀ i j, cx ((d.plant v wl).rS w) ((d.plant v wl).iS w) i j = cxBlock L (wl w) i j from fun i j => plant_S hL v wl w i j]
    obtain ⟨c1, c2⟩ := cxBlock_partAt L (wl w) hp hp2
    refine ⟨c1, fun h => ?_⟩
    obtain ⟨_, h', _, he⟩ := c2 h
    exact ⟨h', he⟩
  refine ⟨L, q, hPL, hexact, ?_, fun S' hS' => ⟨?_, ?_, fun w => ?_⟩⟩
  · refine ⟨fun w => Matrix.of fun i j => match L[(q i).1]? with
      | some p => if h : (q i).1 = (q j).1 ∧ (q i).2 < p.n ∧ (q j).2 < p.n then rnd p (wl w) ⟨(q i).2, h.2.1⟩ ⟨(q j).2, h.2.2⟩ else 0
      | none => 0, hinj, fun i => ?_⟩
    obtain ⟨p, hp, h, hw⟩ := hexact.block i
    refine ⟨p, hp, h, fun w j => ⟨fun hne => ?_, fun he => ?_⟩⟩
    · simp only [Matrix.of_apply, hp]
      exact dif_neg fun h => hne h.1
    · obtain ⟨h', -⟩ := (hw w j).2 he
      refine ⟨h', ?_⟩
      simp only [Matrix.of_apply, hp]
      exact dif_pos ⟨he, h, h'⟩
  · intro w i hi
    obtain ⟨p, hp, h, hw⟩ := hS'.block i
    have hend' : p = .source ∨ p = .detector := by
      obtain ⟨k', p', i', hi', hmem', -, -, hs, hdt, -⟩ := plant_port hL v wl i
      obtain ⟨p₀, hp₀⟩ := hq i
      obtain ⟨h1, -⟩ := partAt_mem L i hp₀
      rw [hp₀] at hi'
      simp only [Option.some.injEq, Prod.mk.injEq] at hi'
      obtain ⟨rfl, rfl, rfl⟩ := hi'
      rw [hp] at h1
      obtain rfl := Option.some.inj h1
      rcases Bool.or_eq_true _ _ ▸ hi with h | h
      · exact .inl (part_src p _ (hs ▸ h))
      · exact .inr (part_det p _ (hdt ▸ h))
    intro j
    constructor
    · by_cases he : (q i).1 = (q j).1
      · obtain ⟨h', e⟩ := (hw w j).2 he
        rw [e, hend p hend']
        rfl
      · exact (hw w j).1 he
    · obtain ⟨p', hp', h', hw'⟩ := hS'.block j
      by_cases he : (q j).1 = (q i).1
      · obtain ⟨h'', e⟩ := (hw' w i).2 he
        rw [he, hp] at hp'
        obtain rfl := Option.some.inj hp'
        rw [e, hend p hend']
        rfl
      · exact (hw' w i).1 he
  · intro w i j hne
    obtain ⟨p, hp, h, hw⟩ := hS'.block i
    have he : (q i).1 = (q j).1 := by
      by_contra he
      exact hne ((hw w j).1 he)
    have hdel : ∀ k : Fin d.comp.n, ∃ p, L[(q k).1]? = some p ∧ (d.plant v wl).delay k = p.delay v := by
      intro k
      obtain ⟨k', p', i', hi', -, -, e, -⟩ := plant_port hL v wl k
      obtain ⟨p₀, hp₀⟩ := hq k
      obtain ⟨h1, -⟩ := partAt_mem L k hp₀
      rw [hp₀] at hi'
      simp only [Option.some.injEq, Prod.mk.injEq] at hi'
      obtain ⟨-, rfl, -⟩ := hi'
      exact ⟨_, h1, e⟩
    obtain ⟨p₁, h1, e1⟩ := hdel i
    obtain ⟨p₂, h2, e2⟩ := hdel j
    rw [he, h2] at h1
    obtain rfl := Option.some.inj h1
    rw [e1, e2]
  · have hnear : ∀ i j, ‖S' w i j - cx ((d.plant v wl).rS w) ((d.plant v wl).iS w) i j‖ ≤ δ := by
      intro i j
      obtain ⟨p, hp, h, hw⟩ := hS'.block i
      obtain ⟨p', hp', h', hw'⟩ := hexact.block i
      rw [hp] at hp'
      obtain rfl := Option.some.inj hp'
      by_cases he : (q i).1 = (q j).1
      · obtain ⟨_, e⟩ := (hw w j).2 he
        obtain ⟨_, e'⟩ := (hw' w j).2 he
        rw [e, e']
        exact hrnd p (hmem i p hp) w _ _
      · have e := (hw w j).1 he
        have e' := (hw' w j).1 he
        rw [e, e', sub_self, norm_zero]
        exact hδ
    have hcard : ∀ i, (Finset.univ.filter fun j => (q j).1 = (q i).1).card ≤ m := by
      intro i
      obtain ⟨p, hp, h, hw⟩ := hexact.block i
      refine le_trans (Finset.card_le_card_of_injOn (t := Finset.range p.n) (fun j => (q j).2) ?_ ?_) ((Finset.card_range _).le.trans (hP p (hmem i p hp)))
      · intro j hj
        simp only [Finset.coe_filter, Finset.mem_univ, true_and, Set.mem_setOf_eq] at hj
        obtain ⟨h', -⟩ := (hw w j).2 hj.symm
        simpa using h'
      · intro j hj k hk hjk
        simp only [Finset.coe_filter, Finset.mem_univ, true_and, Set.mem_setOf_eq] at hj hk
        exact hinj (Prod.ext (hj.trans hk.symm) hjk)
    have hdiff : ∀ i j, S' w i j ≠ cx ((d.plant v wl).rS w) ((d.plant v wl).iS w) i j → (q i).1 = (q j).1 := by
      intro i j hne
      by_contra he
      obtain ⟨p, hp, h, hw⟩ := hS'.block i
      obtain ⟨p', hp', h', hw'⟩ := hexact.block i
      have e := (hw w j).1 he
      have e' := (hw' w j).1 he
      exact hne (e.trans e'.symm)
    refine ⟨hnear, fun i => ⟨_, hcard i, fun j hne => ?_⟩, fun j => ⟨_, hcard j, fun i hne => ?_⟩⟩
    · simpa using (hdiff i j hne).symm
    · simpa using hdiff i j hne

theorem Sens.waveguide_left (wl : ℝ) (u : Fin 2 → ℂ) : power (scattering (.waveguide 1e-5 100 2.34 1.55e-6 3.4 1) wl *ᵥ u) ≤
    ((10 : ℝ) ^ (-(100 : ℝ) * 1e-5 / 20)) ^ 2 * power u := by
  rw [waveguide_entry]
  obtain ⟨z, hz⟩ : ∃ z : ℂ, z = (lossFactor 100 1e-5 : ℂ) * Complex.exp ((2 * Real.pi * neffAt 2.34 1.55e-6 3.4 wl * 1e-5 / wl + 1 : ℝ) * Complex.I) :=
    ⟨_, rfl⟩
  rw [← hz]
  have hn : Complex.normSq z = ((10 : ℝ) ^ (-(100 : ℝ) * 1e-5 / 20)) ^ 2 := by
    rw [Complex.normSq_eq_norm_sq, hz, norm_mul, Complex.norm_exp_ofReal_mul_I, mul_one, Complex.norm_real, lossFactor, Real.norm_eq_abs, sq_abs]
  have e : ∀ u : Fin 2 → ℂ, (cross2 0 z 0 : Matrix (Fin 2) (Fin 2) ℂ) *ᵥ u = ![z * u 1, z * u 0] := by
    intro u
    funext i
    fin_cases i <;> simp [cross2, Matrix.mulVec, dotProduct, Fin.sum_univ_two]
  rw [e]
  unfold power
  simp only [Fin.sum_univ_two, Matrix.cons_val_zero, Matrix.cons_val_one, Complex.normSq_mul, hn]
  linarith

/-- Not vacuous: the lossy line of C66, if every matrix is too small by some fraction, meets all conditions. -/
theorem Sens.exAbsorbing : ∃ (d : Dev) (ρ ε : ℝ), 0 ≤ ρ ∧ 0 < ε ∧ ρ + ε < 1 ∧ d.comp.terminated = true ∧ d.comp.n = 4 ∧
    MadeOf (fun p => ∀ wl u, power (scattering p wl *ᵥ u) ≤ ρ ^ 2 * power u) d ∧
    portsWith (d.plant 1 fun _ : Unit => 1.5e-6).det ≠ [] ∧
    EndsDark (d.plant 1 fun _ : Unit => 1.5e-6) (fun w => ((1 - ε : ℝ) : ℂ) •
      cx ((d.plant 1 fun _ : Unit => 1.5e-6).rS w) ((d.plant 1 fun _ : Unit => 1.5e-6).iS w)) ∧
    (∀ w, DeviatesBy ε (cx ((d.plant 1 fun _ : Unit => 1.5e-6).rS w) ((d.plant 1 fun _ : Unit => 1.5e-6).iS w))
      (((1 - ε : ℝ) : ℂ) • cx ((d.plant 1 fun _ : Unit => 1.5e-6).rS w) ((d.plant 1 fun _ : Unit => 1.5e-6).iS w))) ∧
    KeepsDelays (d.plant 1 fun _ : Unit => 1.5e-6) (fun w => ((1 - ε : ℝ) : ℂ) •
      cx ((d.plant 1 fun _ : Unit => 1.5e-6).rS w) ((d.plant 1 fun _ : Unit => 1.5e-6).iS w)) := by
  obtain ⟨d, d', hd, -, -, hn, hs, hdt, ht, hff⟩ := exLine_devs
  obtain ⟨ρ, hρ⟩ : ∃ ρ : ℝ, ρ = (10 : ℝ) ^ (-(100 : ℝ) * 1e-5 / 20) := ⟨_, rfl⟩
  have h0 : 0 ≤ ρ := by rw [hρ]; positivity
  have h1 : ρ < 1 := by
    rw [hρ]
    exact Real.rpow_lt_one_of_one_lt_of_neg (by norm_num) (by norm_num)
  have hz : ∀ (p : Part), (∀ wl, scattering p wl = 0) → ∀ wl u, power (scattering p wl *ᵥ u) ≤ ρ ^ 2 * power u := by
    intro p hp wl u
    rw [hp wl, Matrix.zero_mulVec]
    have e : power (0 : Fin p.n → ℂ) = 0 := by simp [power]
    rw [e]
    exact mul_nonneg (sq_nonneg _) (Finset.sum_nonneg fun i _ => Complex.normSq_nonneg _)
  have hM := exLine_made (fun p => ∀ wl u, power (scattering p wl *ᵥ u) ≤ ρ ^ 2 * power u) .source .detector
    ⟨hz _ fun _ => by ext i j; rfl, rfl⟩ ⟨hz _ fun _ => by ext i j; rfl, rfl⟩ (fun wl u => hρ ▸ Sens.waveguide_left wl u) d hd
  obtain ⟨hc, L, hP, hL⟩ := madeOf_flat hM
  refine ⟨d, ρ, (1 - ρ) / 2, h0, by linarith, by linarith, ht, hn, hM, exLine_det hn hdt 1 _, fun w i hi j => ?_, fun w u => ?_, fun w i j hne => ?_⟩
  · obtain ⟨a, b⟩ := plant_term hL 1 (fun _ : Unit => 1.5e-6) w i hi j
    constructor
    · exact (congrArg _ a).trans (smul_zero (((1 - (1 - ρ) / 2 : ℝ)) : ℂ))
    · exact (congrArg _ b).trans (smul_zero (((1 - (1 - ρ) / 2 : ℝ)) : ℂ))
  · have hcon := Sens.plant_absorbs hL 1 (fun _ : Unit => 1.5e-6) ρ h0 hP w u
    obtain ⟨ε, hε⟩ : ∃ ε, ε = (1 - ρ) / 2 := ⟨_, rfl⟩
    rw [← hε]
    have hε0 : 0 ≤ ε := by linarith
    obtain ⟨S, hS⟩ : ∃ S, S = cx ((d.plant 1 fun _ : Unit => 1.5e-6).rS w) ((d.plant 1 fun _ : Unit => 1.5e-6).iS w) := ⟨_, rfl⟩
    rw [← hS] at hcon ⊢
    have e : (((1 - ε : ℝ) : ℂ) • S - S) *ᵥ u = -((ε : ℂ) • (S *ᵥ u)) := by
      rw [Matrix.sub_mulVec, Matrix.smul_mulVec]
      push_cast
      rw [sub_smul, one_smul]
      abel
    have e2 : power (-((ε : ℂ) • (S *ᵥ u))) = ε ^ 2 * power (S *ᵥ u) := by
      rw [Sens.power_neg]
      unfold power
      rw [Finset.mul_sum]
      exact Finset.sum_congr rfl fun i _ => by rw [Pi.smul_apply, smul_eq_mul, Complex.normSq_mul, Complex.normSq_ofReal, sq]
    rw [e, e2, Real.sqrt_mul (sq_nonneg _), Real.sqrt_sq hε0]
    have hu := Real.sqrt_nonneg (power u)
    refine mul_le_mul_of_nonneg_left (hcon.trans ?_) hε0
    nlinarith
  · refine (plant_same hL 1 (fun _ : Unit => 1.5e-6) w i j fun h0 => hne ?_).1
    exact (congrArg _ h0).trans (smul_zero (((1 - (1 - ρ) / 2 : ℝ)) : ℂ))

/-- So the theorem applies to it. -/
example : ∃ (d : Dev) (ε q : ℝ), d.comp.n = 4 ∧ 0 < ε ∧
    ResultsWithin q (d.plant 1 fun _ : Unit => 1.5e-6) (withS (d.plant 1 fun _ : Unit => 1.5e-6) fun w =>
      ((1 - ε : ℝ) : ℂ) • cx ((d.plant 1 fun _ : Unit => 1.5e-6).rS w) ((d.plant 1 fun _ : Unit => 1.5e-6).iS w)) := by
  obtain ⟨d, ρ, ε, h1, h2, h3, h4, h5, h6, h7, h8, h9, h10⟩ := Sens.exAbsorbing
  exact ⟨d, ε, _, h5, h2, C149_absorbing d ρ h1 h6 h4 1 _ h7 ε h2.le h3 _ h8 h9⟩

end PT
