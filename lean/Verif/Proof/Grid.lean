import Verif.Proof.Env
import Mathlib.Algebra.Order.Floor.Ring
import Mathlib.Algebra.Order.Floor.Semiring
import Mathlib.Data.Rat.Cast.Order

/-! Lemmas about uniform grids (`arange`, `linspaceOpen`, `firstStep`, ...). -/

namespace PT
open Spec

theorem isGrid_map_range (s d : ℚ) (n : ℕ) :
    IsGrid ((List.range n).map fun (i : ℕ) => s + (i : ℚ) * d) s d n := by
  refine ⟨by simp, fun i hi => ?_⟩
  simp [hi]

theorem isGrid_ext {l l' : List ℚ} {s d : ℚ} {n : ℕ} (h : IsGrid l s d n) (h' : IsGrid l' s d n) :
    l = l' := by
  apply List.ext_getElem?
  intro i
  by_cases hi : i < n
  · rw [h.2 i hi, h'.2 i hi]
  · rw [List.getElem?_eq_none (by have := h.1; omega), List.getElem?_eq_none (by have := h'.1; omega)]

theorem isGrid_eq_map {l : List ℚ} {s d : ℚ} {n : ℕ} (h : IsGrid l s d n) :
    l = (List.range n).map fun (i : ℕ) => s + (i : ℚ) * d := isGrid_ext h (isGrid_map_range s d n)

theorem natAbs_pyTrunc (q : ℚ) : (pyTrunc q).natAbs = ⌊|q|⌋₊ := by
  by_cases h : 0 ≤ q
  · rw [pyTrunc_nonneg h, abs_of_nonneg h]
    have h0 : 0 ≤ ⌊q⌋ := Int.floor_nonneg.mpr h
    have := Int.natCast_floor_eq_floor h
    omega
  · push Not at h
    rw [pyTrunc_neg h, abs_of_neg h]
    have h0 : ⌈q⌉ ≤ 0 := Int.ceil_le.mpr (by simpa using h.le)
    have := Int.natCast_floor_eq_floor (a := -q) (by linarith)
    rw [Int.floor_neg] at this
    omega

theorem pyTrunc_pos {q : ℚ} (h : 0 < pyTrunc q) : 0 ≤ q := by
  by_contra hq
  push Not at hq
  rw [pyTrunc_neg hq] at h
  have h0 : ⌈q⌉ ≤ 0 := Int.ceil_le.mpr (by simpa using hq.le)
  omega

theorem pyTrunc_lt {q : ℚ} (h : pyTrunc q < 0) : q < 0 := by
  by_contra hq
  push Not at hq
  rw [pyTrunc_nonneg hq] at h
  have h0 : 0 ≤ ⌊q⌋ := Int.floor_nonneg.mpr hq
  omega

/-- The shape of every `_arange` result. -/
theorem arange_ok {s e d : ℚ} {l : List ℚ} (h : arange s e d = .ok l) :
    d ≠ 0 ∧ IsGrid l s (if 0 ≤ (e - s) / d then d else -d) (max 1 ⌊|(e - s) / d|⌋₊) := by
  unfold arange at h
  rw [bind_eq_ok] at h
  obtain ⟨q, hq, h⟩ := h
  obtain ⟨hd, rfl⟩ := pyDiv_eq_ok.mp hq
  refine ⟨hd, ?_⟩
  rw [← natAbs_pyTrunc]
  set q := (e - s) / d
  simp only [pure_eq_ok] at h
  split_ifs at h with h1 h2
  · cases h
    rw [h1]
    refine ⟨by simp, fun i hi => ?_⟩
    have : i = 0 := by simp at hi; omega
    subst this; simp
  · cases h
    rw [if_pos (pyTrunc_pos h2), max_eq_right (by omega)]
    refine ⟨by simp, fun i hi => ?_⟩
    simp [hi, mul_comm]
  · cases h
    have h3 : pyTrunc q < 0 := by omega
    rw [if_neg (not_le.mpr (pyTrunc_lt h3)), max_eq_right (by omega)]
    refine ⟨by simp, fun i hi => ?_⟩
    simp [hi, mul_comm]

theorem arange_of_ne {s e d : ℚ} (h : d ≠ 0) : ∃ l, arange s e d = .ok l := by
  unfold arange
  simp only [pyDiv_of_ne h, ok_bind, pure_eq_ok]
  split_ifs <;> exact ⟨_, rfl⟩

theorem arange_zero {s e : ℚ} : arange s e 0 = .error .zeroDivision := by
  simp [arange, pyDiv]

theorem arange_error {s e d : ℚ} {x : PyErr} (h : arange s e d = .error x) :
    d = 0 ∧ x = .zeroDivision := by
  by_cases hd : d = 0
  · subst hd; rw [arange_zero] at h; cases h; simp
  · obtain ⟨l, hl⟩ := arange_of_ne (s := s) (e := e) hd; rw [hl] at h; cases h

theorem linspaceOpen_ok {s e : ℚ} {n : ℤ} {l : List ℚ} (h : linspaceOpen s e n = .ok l) :
    0 ≤ n ∧ IsGrid l s ((e - s) / n) n.toNat := by
  unfold linspaceOpen at h
  split_ifs at h with h1
  cases h
  exact ⟨by omega, isGrid_map_range _ _ _⟩

namespace IsGridL
variable {l : List ℚ} {s d : ℚ} {n : ℕ}

theorem headD (h : IsGrid l s d n) (hn : 1 ≤ n) : l.headD 0 = s := by
  have h0 := h.2 0 (by omega)
  cases l <;> simp_all

theorem firstStep_eq (h : IsGrid l s d n) (hn : 2 ≤ n) : firstStep l = some d := by
  have h0 := h.2 0 (by omega)
  have h1 := h.2 1 (by omega)
  match l, h0, h1 with
  | [_], _, h1 => simp at h1
  | x :: y :: l, h0, h1 =>
    simp at h0 h1
    simp [firstStep, h0, h1]

theorem firstStep_none {l : List ℚ} (h : l.length < 2) : firstStep l = none := by
  match l, h with
  | [], _ => rfl
  | [_], _ => rfl

theorem lastD_eq (h : IsGrid l s d n) (hn : 1 ≤ n) : lastD l = s + (n - 1) * d := by
  have h0 := h.2 (n - 1) (by omega)
  have hl := h.1
  unfold lastD
  rw [List.getLastD_eq_getLast?, List.getLast?_eq_getElem?, hl, h0]
  simp [Nat.cast_sub hn]

theorem last2D_eq (h : IsGrid l s d n) (hn : 2 ≤ n) : last2D l = s + (n - 2) * d := by
  have h0 := h.2 (n - 2) (by omega)
  have hl := h.1
  unfold last2D
  rw [List.getLastD_eq_getLast?, List.getLast?_eq_getElem?, List.length_dropLast, hl,
    List.getElem?_dropLast]
  have : n - 1 - 1 = n - 2 := by omega
  rw [this, if_pos (by omega), h0]
  simp [Nat.cast_sub hn]

theorem timeEnd_eq (h : IsGrid l s d n) (hn : 2 ≤ n) : timeEnd l = some (s + n * d) := by
  unfold timeEnd
  rw [firstStep_eq h hn, lastD_eq h (by omega)]
  simp; ring

theorem gridEnd_eq (h : IsGrid l s d n) (hn : 2 ≤ n) : gridEnd l = some (s + n * d) := by
  unfold gridEnd
  rw [lastD_eq h (by omega), last2D_eq h hn, h.1, if_neg (by omega)]
  congr 1; ring

end IsGridL
end PT
