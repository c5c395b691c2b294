import Verif.Spec.Powers
import Verif.Props.Length

/-! C157: Powers detected in circuits that are not quite what they should be. -/

namespace PT
open Spec Matrix

variable {W : Type} {cs : List Conn}

namespace Tol

theorem off_point (c : ℝ) (hc : 0 < c) (x y : ℝ × ℝ) :
    |y.1 ^ 2 + y.2 ^ 2 - (x.1 ^ 2 + x.2 ^ 2)| ≤ c * (x.1 ^ 2 + x.2 ^ 2) + (1 / c + 1) * ((y.1 - x.1) ^ 2 + (y.2 - x.2) ^ 2) := by
  obtain ⟨a, b⟩ := x
  obtain ⟨u, v⟩ := y
  have key : ∀ s t : ℝ, |t ^ 2 - s ^ 2| ≤ c * s ^ 2 + (1 / c + 1) * (t - s) ^ 2 := by
    intro s t
    have h1 : 0 ≤ (c * s - (t - s)) ^ 2 / c := by positivity
    have h2 : 0 ≤ (c * s + (t - s)) ^ 2 / c := by positivity
    have e1 : (c * s - (t - s)) ^ 2 / c = c * s ^ 2 - 2 * s * (t - s) + 1 / c * (t - s) ^ 2 := by field_simp; ring
    have e2 : (c * s + (t - s)) ^ 2 / c = c * s ^ 2 + 2 * s * (t - s) + 1 / c * (t - s) ^ 2 := by field_simp; ring
    rw [e1] at h1
    rw [e2] at h2
    have h3 := sq_nonneg (t - s)
    rw [abs_le]
    constructor <;> nlinarith
  have h1 := key a u
  have h2 := key b v
  have h3 := abs_add_le (u ^ 2 - a ^ 2) (v ^ 2 - b ^ 2)
  rw [show u ^ 2 - a ^ 2 + (v ^ 2 - b ^ 2) = u ^ 2 + v ^ 2 - (a ^ 2 + b ^ 2) by ring] at h3
  show |u ^ 2 + v ^ 2 - (a ^ 2 + b ^ 2)| ≤ c * (a ^ 2 + b ^ 2) + (1 / c + 1) * ((u - a) ^ 2 + (v - b) ^ 2)
  linarith

theorem off_list (c : ℝ) (hc : 0 < c) : ∀ u v : List (ℝ × ℝ),
    offBy (u.map fun x => x.1 ^ 2 + x.2 ^ 2) (v.map fun x => x.1 ^ 2 + x.2 ^ 2) ≤
      c * (u.map fun x => x.1 ^ 2 + x.2 ^ 2).sum + (1 / c + 1) * mismatch v u
  | [], v => by simp [offBy, mismatch]
  | x :: u, [] => by
    have : 0 ≤ ((x :: u).map fun x : ℝ × ℝ => x.1 ^ 2 + x.2 ^ 2).sum :=
      List.sum_nonneg fun y hy => by obtain ⟨z, -, rfl⟩ := List.mem_map.mp hy; positivity
    simp only [offBy, mismatch, List.map_nil, List.zipWith_nil_right, List.zipWith_nil_left, List.sum_nil]
    positivity
  | x :: u, y :: v => by
    have h1 := off_point c hc x y
    have h2 := off_list c hc u v
    simp only [offBy, mismatch, List.map_cons, List.zipWith_cons_cons, List.sum_cons] at h2 ⊢
    linarith

theorem off_lists (c : ℝ) (hc : 0 < c) : ∀ u v : List (List (ℝ × ℝ)),
    (List.zipWith (fun x y : List (ℝ × ℝ) => offBy (x.map fun x => x.1 ^ 2 + x.2 ^ 2) (y.map fun x => x.1 ^ 2 + x.2 ^ 2)) u v).sum ≤
      c * (u.map fun l => (l.map fun x : ℝ × ℝ => x.1 ^ 2 + x.2 ^ 2).sum).sum + (1 / c + 1) * (List.zipWith (fun x y => mismatch y x) u v).sum
  | [], v => by simp
  | x :: u, [] => by
    have : 0 ≤ ((x :: u).map fun l => (l.map fun x : ℝ × ℝ => x.1 ^ 2 + x.2 ^ 2).sum).sum :=
      List.sum_nonneg fun y hy => by
        obtain ⟨z, -, rfl⟩ := List.mem_map.mp hy
        exact List.sum_nonneg fun y hy => by obtain ⟨z, -, rfl⟩ := List.mem_map.mp hy; positivity
    simp only [List.zipWith_nil_right, List.sum_nil]
    positivity
  | x :: u, y :: v => by
    have h1 := off_list c hc x y
    have h2 := off_lists c hc u v
    simp only [List.map_cons, List.zipWith_cons_cons, List.sum_cons] at h2 ⊢
    linarith

theorem off_total {q D A M P : ℝ} (hq : 0 ≤ q) (hP : 0 ≤ P) (h : ∀ c, 0 < c → D ≤ c * A + (1 / c + 1) * M) (hA : A ≤ P) (h0 : 0 ≤ M)
    (hM : √M ≤ q * √P) : D ≤ q * (2 + q) * P := by
  have hM' : M ≤ q ^ 2 * P := by
    have := pow_le_pow_left₀ (Real.sqrt_nonneg M) hM 2
    rwa [Real.sq_sqrt h0, mul_pow, Real.sq_sqrt hP] at this
  rcases hq.eq_or_lt with rfl | hq
  · have hM0 : M = 0 := le_antisymm (by simpa using hM') h0
    rw [zero_mul, zero_mul]
    refine le_of_forall_pos_le_add fun e he => ?_
    have h1 := h (e / (P + 1)) (by positivity)
    rw [hM0, mul_zero, add_zero] at h1
    have h2 : e / (P + 1) * A ≤ e / (P + 1) * P := mul_le_mul_of_nonneg_left hA (by positivity)
    have h3 : e / (P + 1) * P ≤ e := by
      rw [div_mul_eq_mul_div, div_le_iff₀ (by positivity)]
      nlinarith
    linarith
  · have h1 := h q hq
    have h2 : (1 / q + 1) * M ≤ (1 / q + 1) * (q ^ 2 * P) := mul_le_mul_of_nonneg_left hM' (by positivity)
    have h3 : q * A ≤ q * P := mul_le_mul_of_nonneg_left hA hq.le
    have e : (1 / q + 1) * (q ^ 2 * P) = q * P + q ^ 2 * P := by field_simp
    nlinarith

theorem zipWith_nonneg {α β : Type} {f : α → β → ℝ} (h : ∀ x y, 0 ≤ f x y) : ∀ u v, 0 ≤ (List.zipWith f u v).sum
  | [], _ => by simp
  | _ :: _, [] => by simp
  | x :: u, y :: v => by
    rw [List.zipWith_cons_cons, List.sum_cons]
    exact add_nonneg (h x y) (zipWith_nonneg h u v)

theorem mismatch_nonneg (u v : List (ℝ × ℝ)) : 0 ≤ mismatch u v := zipWith_nonneg (fun x y => by positivity) u v

end Tol

/-- C157. Powers in circuits without gain. -/
theorem C157_powers (d : Dev) (hM : MadeOf (fun p => ∀ wl, Contracts (scattering p wl)) d) (ht : d.comp.terminated = true) (v : ℝ) (wl : W → ℝ)
    (hd : portsWith (d.plant v wl).det ≠ []) (q : ℝ) (hq : 0 ≤ q) (p' : Plant W) (h : ResultsWithin q (d.plant v wl) p') :
    PowersWithin (q * (2 + q)) (d.plant v wl) p' := by
  intro env hf ht1
  obtain ⟨r, r', hr, hr', hB⟩ := h env hf ht1
  refine ⟨r, r', hr, hr', fun B cs src => ?_⟩
  obtain ⟨o, o', ho, ho', hw⟩ := hB B cs src
  obtain ⟨o₂, ho₂, he⟩ := C66_power d hM ht v wl env hf ht1 hd r hr cs src
  have e1 : forwardPower r env cs src = .ok [fun w b => (o w b).map fun u => u.1 ^ 2 + u.2 ^ 2] := by
    unfold forwardPower
    rw [ho]
    rfl
  have e2 : forwardPower r' env cs src = .ok [fun w b => (o' w b).map fun u => u.1 ^ 2 + u.2 ^ 2] := by
    unfold forwardPower
    rw [ho']
    rfl
  rw [e1] at ho₂
  simp only [Except.ok.injEq, List.cons.injEq, and_true] at ho₂
  subst ho₂
  refine ⟨_, _, e1, e2, fun w b => ⟨by simp only [List.length_map]; exact (hw w b).1, ?_⟩⟩
  have hm := (hw w b).2
  have hp : power (emitted (d.plant v wl).src fun k => asComplex (src 0 k w b)) =
      ∑ k ∈ Finset.range (portsWith (d.plant v wl).src).length, ((src 0 k w b).1 ^ 2 + (src 0 k w b).2 ^ 2) := by
    rw [power_emitted]
    refine Finset.sum_congr rfl fun k _ => ?_
    rw [Complex.normSq_apply, pow_two, pow_two]
    rfl
  rw [hp] at hm
  exact Tol.off_total hq (Finset.sum_nonneg fun k _ => by positivity) (fun c hc => Tol.off_list c hc _ _) (he w b) (Tol.mismatch_nonneg _ _) hm

/-- C157. Energies in circuits without gain. -/
theorem C157_energies (d : Dev) (hM : MadeOf (fun p => ∀ wl, Contracts (scattering p wl)) d) (ht : d.comp.terminated = true) (v : ℝ) (wl : W → ℝ)
    (hd : portsWith (d.plant v wl).det ≠ []) (q dt : ℝ) (hq : 0 ≤ q) (hdt : 0 < dt) (p' : Plant W) (h : RunsWithin q dt (d.plant v wl) p') :
    EnergiesWithin (q * (2 + q)) dt (d.plant v wl) p' := by
  intro env hf hedt
  obtain ⟨r, r', hr, hr', hB⟩ := h env hf hedt
  refine ⟨r, r', hr, hr', fun B cs src => ?_⟩
  obtain ⟨o, o', ho, ho', hl, hl', hw⟩ := hB B cs src
  obtain ⟨o₂, ho₂, -, he⟩ := C66_energy d hM ht v wl env dt hedt hdt hf hd r hr cs src
  have e1 : forwardPower r env cs src = .ok (o.map fun o w b => (o w b).map fun u => u.1 ^ 2 + u.2 ^ 2) := by
    unfold forwardPower
    rw [ho]
    rfl
  have e2 : forwardPower r' env cs src = .ok (o'.map fun o w b => (o w b).map fun u => u.1 ^ 2 + u.2 ^ 2) := by
    unfold forwardPower
    rw [ho']
    rfl
  rw [e1] at ho₂
  simp only [Except.ok.injEq] at ho₂
  subst ho₂
  refine ⟨_, _, e1, e2, by rw [List.length_map, hl], by rw [List.length_map, hl'], fun w b => ⟨fun t h h' => ?_, fun T hT => ?_⟩⟩
  · simp only [List.getElem_map, List.length_map]
    exact (hw w b).1 t (by simpa using h) (by simpa using h')
  have hm := (hw w b).2 T hT
  have hp : energy T (fun t => emitted (d.plant v wl).src fun k => asComplex (src t k w b)) =
      ∑ t ∈ Finset.range T, ∑ k ∈ Finset.range (portsWith (d.plant v wl).src).length, ((src t k w b).1 ^ 2 + (src t k w b).2 ^ 2) := by
    unfold energy
    refine Finset.sum_congr rfl fun t _ => ?_
    rw [power_emitted]
    refine Finset.sum_congr rfl fun k _ => ?_
    rw [Complex.normSq_apply, pow_two, pow_two]
    rfl
  rw [hp] at hm
  have he' := he w b T hT
  rw [← List.map_take, List.map_map] at he'
  rw [← List.map_take, ← List.map_take, List.zipWith_map]
  refine Tol.off_total hq (Finset.sum_nonneg fun t _ => Finset.sum_nonneg fun k _ => by positivity) (fun c hc => ?_) he' ?_ hm
  · have := Tol.off_lists c hc ((o.take T).map fun f => f w b) ((o'.take T).map fun f => f w b)
    rw [List.zipWith_map, List.zipWith_map, List.map_map] at this
    exact this
  · exact Tol.zipWith_nonneg (fun x y => Tol.mismatch_nonneg _ _) _ _

/-- Not vacuous: powers behind a line with a waveguide that is a millionth too long change by at most a thirtieth. -/
example : ∃ d d', mkDev none (exLineWith 1) (exLineCs.map Conn.text) = .ok d ∧
    mkDev none [(['a'], Part.source.dev), (['w'], (Part.waveguide (1e-5 + 1e-11) 100 2.34 1.55e-6 3.4 1).dev), (['b'], Part.detector.dev)]
      (exLineCs.map Conn.text) = .ok d' ∧
    ∃ q, q ≤ (1 / 30 : ℝ) ∧ PowersWithin q (d.plant 3e8 fun _ : Unit => 1.5e-6) (d'.plant 3e8 fun _ : Unit => 1.5e-6) ∧
      EnergiesWithin q 1e-14 (d.plant 3e8 fun _ : Unit => 1.5e-6) (d'.plant 3e8 fun _ : Unit => 1.5e-6) := by
  obtain ⟨d, d', hd, hd', hV, hM, hn, hdet, ht, hff⟩ := Tol.exLines_long (R := Tol.exR) (1e-5 + 1e-11) 3.4
    (Tol.exR_same .source (by decide) le_rfl) (Tol.exR_same .detector (by decide) le_rfl)
    ⟨⟨Tol.exLonger_looks 100 1 (by norm_num) (by norm_num), (by decide : 2 ≤ 4)⟩, Tol.exLonger⟩
  have hdl := exLine_det hn hdet 3e8 (fun _ : Unit => 1.5e-6)
  have h := C156_feedforward (fun _ : Unit => 1.5e-6) (1 / 1000) (by norm_num) (fun p p' h => h.1) d d' hV hM ht _ _ hff 2
    (fun i hi => by rw [hn] at hi; show (i + 1) / 2 ≤ 2; omega) 3e8 hdl 1e-14 (by norm_num) _ rfl (by norm_num)
  exact ⟨d, d', hd, hd', _, by norm_num, C157_powers d hM ht 3e8 _ hdl _ (by norm_num) _ h.1,
    C157_energies d hM ht 3e8 _ hdl _ 1e-14 (by norm_num) (by norm_num) _ (h.2 fun p p' h => h.2)⟩

end PT
